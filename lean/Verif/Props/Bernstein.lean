import Verif.Lemmas.Bernstein
import Verif.Spec.ExactEnv
import Mathlib.Algebra.BigOperators.Group.Finset.Basic
import Mathlib.Algebra.BigOperators.Fin
import Mathlib.Data.Nat.Choose.Sum
import Mathlib.Algebra.Order.Ring.Defs
import Mathlib.Tactic.Linarith

/-! # C01, C02: Bernstein weights -/

namespace Geom3d
open Spec

theorem sum_tab {M : Type} [AddCommMonoid M] (n : Nat) (f : Nat → M) :
    (tab n f).sum = ∑ i ∈ Finset.range n, f i := by
  induction n with
  | zero => simp [tab]
  | succ n ih =>
    rw [Finset.sum_range_succ, ← ih]
    simp [tab, List.range_succ]

/-- **C01.** For `n ≥ 1` the weights are the Bernstein polynomials of degree `n - 1`, over any
commutative ring and for every `u`. -/
theorem C01_bernstein_eq {K : Type} [CommRing K] (n : Nat) (hn : 1 ≤ n) (u : K) :
    ∃ w, bernstein n u = .ok w ∧ w.length = n ∧
      ∀ i, i < n → w[i]? = some (bernsteinPoly (n - 1) i u) := by
  refine ⟨_, bernstein_eq n hn u, by simp, ?_⟩
  intro i hi
  rw [tab_getElem?, if_pos hi]

/-- **C01**, no control points: a panic, for every number type whatsoever. -/
theorem C01_bernstein_empty {F : Type} [Add F] [Sub F] [Mul F] [Zero F] [One F] (u : F) :
    bernstein 0 u = .error .index := rfl

/-- Law-free companion: for every number type (in particular `f64`) and `n ≥ 1`, evaluation does not
panic and returns `n` weights. -/
theorem C01_bernstein_total {F : Type} [Add F] [Sub F] [Mul F] [Zero F] [One F] (n : Nat) (hn : 1 ≤ n)
    (u : F) : ∃ w, bernstein n u = .ok w ∧ w.length = n := by
  unfold bernstein
  simp only []
  rw [upd_ok (by simp only [List.length_replicate]; omega)]
  simp only [ok_bind]
  obtain ⟨s', h1, h2⟩ := forRange_inv (a := 1) (b := n)
    (s := (List.replicate n (0 : F)).set 0 1) (body := bernsteinOuter u (1 - u))
    (fun _ s => s.length = n) hn (by simp)
    (by
      intro j s _ hj hs
      unfold bernsteinOuter
      obtain ⟨s'', h1, h2⟩ := forRange_inv (a := 0) (b := j) (s := (s, (0 : F)))
        (body := bernsteinInner u (1 - u)) (fun _ s => s.1.length = n) (Nat.zero_le _) hs
        (by
          rintro i ⟨l, sv⟩ _ hi hl
          simp only at hl
          refine ⟨(l.set i (sv + (1 - u) * l[i]'(by omega)), u * l[i]'(by omega)), ?_, by simpa using hl⟩
          simp only [bernsteinInner]
          rw [idx_ok (by omega)]
          simp only [ok_bind]
          rw [upd_ok (by omega)]
          rfl)
      rw [h1]
      simp only [ok_bind]
      rw [upd_ok (by omega)]
      exact ⟨_, rfl, by simpa using h2⟩)
  exact ⟨s', h1, h2⟩

/-- Non-vacuity: the cubic weights at 1/4 (also the value asserted by the crate's own unit test). -/
example : bernstein 4 (1 / 4 : ℚ) = .ok [27 / 64, 27 / 64, 9 / 64, 1 / 64] := by decide +kernel

/-- **C02**, partition of unity for every `u`. -/
theorem C02_sum_eq_one {K : Type} [CommRing K] (n : Nat) (hn : 1 ≤ n) (u : K) (w : List K)
    (hw : bernstein n u = .ok w) : w.sum = 1 := by
  rw [bernstein_eq n hn u] at hw
  injection hw with hw
  subst hw
  rw [sum_tab]
  obtain ⟨m, rfl⟩ : ∃ m, n = m + 1 := ⟨n - 1, by omega⟩
  have := add_pow u (1 - u) m
  rw [show u + (1 - u) = 1 by ring, one_pow] at this
  rw [this]
  apply Finset.sum_congr rfl
  intro i _
  simp only [bernsteinPoly, Nat.add_sub_cancel]
  ring

/-- **C02**, non-negativity on the unit interval. -/
theorem C02_nonneg {K : Type} [CommRing K] [LinearOrder K] [IsStrictOrderedRing K] (n : Nat)
    (hn : 1 ≤ n) (u : K) (h0 : 0 ≤ u) (h1 : u ≤ 1) (w : List K) (hw : bernstein n u = .ok w) :
    ∀ x ∈ w, 0 ≤ x := by
  rw [bernstein_eq n hn u] at hw
  injection hw with hw
  subst hw
  intro x hx
  simp only [tab, List.mem_map, List.mem_range] at hx
  obtain ⟨i, -, rfl⟩ := hx
  have : 0 ≤ 1 - u := by linarith
  unfold bernsteinPoly
  exact mul_nonneg (mul_nonneg (Nat.cast_nonneg _) (pow_nonneg h0 _)) (pow_nonneg this _)

/-- **C02**, end points: at `0` only the first weight, at `1` only the last weight is non-zero. -/
theorem C02_ends {K : Type} [CommRing K] (n : Nat) (hn : 1 ≤ n) :
    bernstein n (0 : K) = .ok (tab n (fun i => if i = 0 then 1 else 0)) ∧
    bernstein n (1 : K) = .ok (tab n (fun i => if i = n - 1 then 1 else 0)) := by
  rw [bernstein_eq n hn, bernstein_eq n hn]
  constructor
  · congr 1; apply tab_congr; intro i hi
    by_cases h : i = 0
    · subst h; simp [bernsteinPoly]
    · simp [bernsteinPoly, h]
  · congr 1; apply tab_congr; intro i hi
    by_cases h : i = n - 1
    · subst h; simp [bernsteinPoly]
    · simp only [bernsteinPoly, sub_self]
      rw [zero_pow (by omega)]; simp [h]

/-- Non-vacuity: four weights at 1/4 sum to one and are positive. -/
example : (27 / 64 + 27 / 64 + 9 / 64 + 1 / 64 : ℚ) = 1 := by decide +kernel

end Geom3d
