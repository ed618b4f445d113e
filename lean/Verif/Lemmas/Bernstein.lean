import Verif.Lemmas.Tab
import Verif.Model.Knot
import Verif.Spec.Bernstein
import Mathlib.Tactic.Ring
import Mathlib.Tactic.LinearCombination

/-! The in-place double loop of `bernstein` computes Bernstein polynomials. -/

namespace Geom3d
open Spec

variable {K : Type} [CommRing K]

theorem bernsteinPoly_zero (d : Nat) (u : K) :
    bernsteinPoly (d + 1) 0 u = (1 - u) * bernsteinPoly d 0 u := by
  simp [bernsteinPoly, pow_succ]; ring

theorem bernsteinPoly_of_lt {d i : Nat} (h : d < i) (u : K) : bernsteinPoly d i u = 0 := by
  simp [bernsteinPoly, Nat.choose_eq_zero_of_lt h]

theorem bernsteinPoly_succ (d i : Nat) (u : K) :
    bernsteinPoly (d + 1) (i + 1) u
      = u * bernsteinPoly d i u + (1 - u) * bernsteinPoly d (i + 1) u := by
  rcases lt_or_ge d (i + 1) with h | h
  · rw [bernsteinPoly_of_lt h]
    simp only [bernsteinPoly, Nat.choose_succ_succ, Nat.choose_eq_zero_of_lt h]
    have : d + 1 - (i + 1) = d - i := by omega
    rw [this]; push_cast; ring
  · simp only [bernsteinPoly, Nat.choose_succ_succ]
    have h1 : d + 1 - (i + 1) = d - (i + 1) + 1 := by omega
    have h2 : d - i = d - (i + 1) + 1 := by omega
    rw [h1, h2]; push_cast; ring

/-- Value of cell `i` of the array when the table holds degree `j` (cells `0..=j`). -/
def bernCell (u : K) (j i : Nat) : K := if i ≤ j then bernsteinPoly j i u else 0

theorem bernCell_eq (u : K) (j i : Nat) : bernCell u j i = bernsteinPoly j i u := by
  unfold bernCell; split
  · rfl
  · rw [bernsteinPoly_of_lt (by omega)]

theorem bernsteinInner_loop (n : Nat) (u : K) (j : Nat) (hj : j + 1 < n) :
    forRange 0 (j + 1) (tab n (fun i => bernsteinPoly j i u), 0) (bernsteinInner u (1 - u))
      = .ok (tab n (fun i => if i < j + 1 then bernsteinPoly (j + 1) i u else bernsteinPoly j i u),
          u * bernsteinPoly j j u) := by
  obtain ⟨s', h1, h2⟩ := forRange_inv (a := 0) (b := j + 1)
    (s := (tab n (fun i => bernsteinPoly j i u), (0 : K))) (body := bernsteinInner u (1 - u))
    (fun k s => s = (tab n (fun i => if i < k then bernsteinPoly (j + 1) i u
        else bernsteinPoly j i u), if k = 0 then 0 else u * bernsteinPoly j (k - 1) u))
    (by omega) (by simp)
    (by
      rintro k s - hk rfl
      refine ⟨_, ?_, rfl⟩
      simp only [bernsteinInner]
      rw [idx_tab (by omega)]
      simp only [ok_bind]
      rw [upd_tab (by omega)]
      simp only [ok_bind, pure_eq_ok, lt_irrefl, if_false, Except.ok.injEq, Prod.mk.injEq,
        Nat.add_sub_cancel, Nat.add_eq_zero_iff, one_ne_zero, and_false, and_true]
      apply tab_congr
      intro i hi
      by_cases hik : i = k
      · subst hik
        rw [Function.update_self, if_pos (Nat.lt_succ_self _)]
        cases i with
        | zero => simp [bernsteinPoly_zero]
        | succ i => simp [bernsteinPoly_succ]
      · rw [Function.update_of_ne hik]
        have : i < k + 1 ↔ i < k := by omega
        simp [this])
  rw [h1, h2]; simp

theorem bernstein_eq (n : Nat) (hn : 1 ≤ n) (u : K) :
    bernstein n u = .ok (tab n (fun i => bernsteinPoly (n - 1) i u)) := by
  unfold bernstein
  rw [replicate_eq_tab]
  simp only []
  rw [upd_tab (by omega)]
  simp only [ok_bind]
  obtain ⟨s', h1, h2⟩ := forRange_inv (a := 1) (b := n)
    (s := tab n (Function.update (fun _ => (0 : K)) 0 1)) (body := bernsteinOuter u (1 - u))
    (fun j s => s = tab n (fun i => bernsteinPoly (j - 1) i u))
    hn
    (by
      apply tab_congr; intro i _
      by_cases h : i = 0
      · subst h; simp [bernsteinPoly]
      · rw [Function.update_of_ne h, bernsteinPoly_of_lt (by omega)])
    (by
      rintro j s hj1 hj rfl
      obtain ⟨j, rfl⟩ : ∃ m, j = m + 1 := ⟨j - 1, by omega⟩
      refine ⟨_, ?_, rfl⟩
      simp only [bernsteinOuter, Nat.add_sub_cancel]
      rw [bernsteinInner_loop n u j hj]
      simp only [ok_bind]
      rw [upd_tab hj]
      congr 1
      apply tab_congr
      intro i hi
      by_cases hij : i = j + 1
      · subst hij
        rw [Function.update_self, bernsteinPoly_succ, bernsteinPoly_of_lt (i := j + 1) (by omega)]
        ring
      · rw [Function.update_of_ne hij]
        split
        · rfl
        · rw [bernsteinPoly_of_lt (by omega), bernsteinPoly_of_lt (by omega)])
  rw [h1, h2]

end Geom3d
