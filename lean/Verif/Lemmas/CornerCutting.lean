import Verif.Props.Variation
import Mathlib.LinearAlgebra.Alternating.Basic

/-!
# Corner cutting with values in a module

After inserting every parameter of interest `degree + 1` times, the values of a spline are among its coefficients, in order.
Whatever holds of the coefficients and survives the cutting of corners holds of the values.
-/

set_option linter.unusedSectionVars false

namespace Geom3d
open Spec Finset

variable {K V : Type} [Field K] [LinearOrder K] [IsStrictOrderedRing K] [AddCommGroup V] [Module K V]

/-- The coefficients with all corners cut: `β j` of the way from coefficient `j - 1` to coefficient `j`. -/
def cutBy (β : Nat → K) (a : Nat → V) (j : Nat) : V := β j • a j + (1 - β j) • a (j - 1)

theorem cutBy_sum {t : Nat → K} {N p q r rv r' : Nat} {v x : K} (hm : ∀ i j, i ≤ j → j ≤ N + p → t i ≤ t j)
    (h1 : t r ≤ x) (h2 : x < t (r + 1)) (hr : r < N) (hp : p ≤ r) (h' : Has (insertFn t r x) (N + 1) p q v r')
    (ho : oldSpan r r' = rv) {a : Nat → V} (ha : ∀ i, N ≤ i → a i = 0) :
    ∑ i ∈ range (N + 1), piece (insertFn t r x) r' p i v • cutBy (boehm t r p x) a i = ∑ i ∈ range N, piece t rv p i v • a i := by
  have hm' := insertFn_mono (n := N + p) (x := x) hm (by omega) h1 (fun _ => h2.le)
  have hsp : SpanAt (insertFn t r x) (N + p + 1) r' :=
    ⟨hm', by have := h'.hi; omega, lt_of_le_of_lt h'.left h'.right⟩
  have e : ∀ i ∈ range N, piece t rv p i v • a i
      = (boehm t r p x i * piece (insertFn t r x) r' p i v) • a i
        + ((1 - boehm t r p x (i + 1)) * piece (insertFn t r x) r' p (i + 1) v) • a i := by
    intro i hi
    rw [Finset.mem_range] at hi
    rw [← ho, boehm_piece hsp v p i (by omega), add_smul]
  rw [Finset.sum_congr rfl e, Finset.sum_add_distrib]
  have e' : ∀ i, piece (insertFn t r x) r' p i v • cutBy (boehm t r p x) a i
      = (boehm t r p x i * piece (insertFn t r x) r' p i v) • a i
        + ((1 - boehm t r p x i) * piece (insertFn t r x) r' p i v) • a (i - 1) := by
    intro i
    unfold cutBy
    rw [smul_add, smul_smul, smul_smul, mul_comm, mul_comm (1 - boehm t r p x i)]
  simp only [e']
  rw [Finset.sum_add_distrib, Finset.sum_range_succ, ha N (le_refl _), smul_zero, add_zero]
  congr 1
  rw [Finset.sum_range_succ']
  have e0 : boehm t r p x 0 = 1 := by unfold boehm; rw [if_pos (by omega)]
  rw [e0]
  simp

/-- A property of coefficients that survives the cutting of corners. -/
def Survives (Φ : Nat → (Nat → V) → Prop) (K : Type) [Field K] [LinearOrder K] [Module K V] : Prop :=
  ∀ (N : Nat) (a : Nat → V) (β : Nat → K), (∀ j, 0 ≤ β j ∧ β j ≤ 1) → β N = 0 → (∀ i, N ≤ i → a i = 0) → Φ N a →
    Φ (N + 1) (cutBy β a)

/-- The values at increasing parameters are, in order, coefficients after cutting corners. -/
theorem spline_refined [Env K] {p m : Nat} {u : Nat → K} (hu : ∀ i, i + 1 < m → u i < u (i + 1))
    {Φ : Nat → (Nat → V) → Prop} (hΦ : Survives Φ K) (total : Nat) :
    ∀ {t : Nat → K} {N : Nat} {a : Nat → V} {q r : Nat → Nat}, (∀ i j, i ≤ j → j ≤ N + p → t i ≤ t j) →
      (∀ i, N ≤ i → a i = 0) → (∀ i, i < m → Has t N p (q i) (u i) (r i)) → ∑ i ∈ range m, (p + 1 - q i) = total →
      Φ N a → ∃ (N' : Nat) (a' : Nat → V) (k : Nat → Nat), Φ N' a' ∧ (∀ i, i + 1 < m → k i < k (i + 1)) ∧
        ∀ i, i < m → k i < N' ∧ a' (k i) = ∑ j ∈ range N, piece t (r i) p j (u i) • a j := by
  induction total using Nat.strong_induction_on with
  | _ total ih =>
    intro t N a q r hm ha hh ht hs
    by_cases hall : ∀ i, i < m → p + 1 ≤ q i
    · refine ⟨N, a, fun i => r i - p, hs, fun i hi => ?_, fun i hi => ?_⟩
      · have g1 := hh i (by omega)
        have g2 := hh (i + 1) hi
        have : r i < r (i + 1) := by
          by_contra hc
          have e6 := g2.right
          have e7 := hu i hi
          have e1 := g1.left
          rcases Nat.lt_or_eq_of_le (not_lt.1 hc) with h' | h'
          · have := hm (r (i + 1) + 1) (r i) (by omega) (by have := g1.hi; omega)
            linarith
          · have e8 := g2.run (r (i + 1)) (by have := hall (i + 1) hi; omega) (le_refl _)
            have e9 := g1.run (r i) (by have := hall i (by omega); omega) (le_refl _)
            rw [h'] at e8
            linarith
        have := g1.lo
        have := g2.lo
        show r i - p < r (i + 1) - p
        omega
      · have g := hh i hi
        have hv : u i = t (r i) := (g.run (r i) (by have := hall i hi; omega) (le_refl _)).symm
        have e : ∀ j ∈ range N, piece t (r i) p j (u i) • a j = if j = r i - p then a j else 0 := by
          intro j _
          rw [hv, piece_at_start (lt_of_le_of_lt g.left g.right) p j g.lo fun j' h1 h2 => by
            rw [g.run j' (by have := hall i hi; omega) h2, hv]]
          have := g.lo
          by_cases hj : j = r i - p
          · rw [if_pos (by omega), if_pos hj, one_smul]
          · rw [if_neg (by omega), if_neg hj, zero_smul]
        have hlt : r i - p < N := by have := g.hi; omega
        exact ⟨hlt, by rw [Finset.sum_congr rfl e, Finset.sum_ite_eq' (range N) (r i - p), if_pos (Finset.mem_range.2 hlt)]⟩
    · push Not at hall
      obtain ⟨i0, hi0, hq⟩ := hall
      have g := hh i0 hi0
      have key : ∀ i, i < m → ∃ r', Has (insertFn t (r i0) (u i0)) (N + 1) p (if u i = u i0 then q i + 1 else q i) (u i) r' ∧
          oldSpan (r i0) r' = r i := fun i hi => (hh i hi).insert hm g.left g.right g.hi
      choose! r' hr' using key
      have hm' := insertFn_mono (n := N + p) (x := u i0) hm (by have := g.hi; omega) g.left (fun _ => g.right.le)
      obtain ⟨N', a', k, k1, k2, k3⟩ := ih (∑ i ∈ range m, (p + 1 - (if u i = u i0 then q i + 1 else q i))) (by
          rw [← ht]
          refine Finset.sum_lt_sum (fun i _ => ?_) ⟨i0, Finset.mem_range.2 hi0, ?_⟩
          · split <;> omega
          · rw [if_pos rfl]; omega)
        (t := insertFn t (r i0) (u i0)) (N := N + 1) (a := cutBy (boehm t (r i0) p (u i0)) a)
        (fun i j hij hj => hm' i j hij (by omega)) (by
          intro i hi
          unfold cutBy
          rw [ha i (by omega), ha (i - 1) (by omega), smul_zero, smul_zero, add_zero])
        (fun i hi => (hr' i hi).1) rfl (hΦ N a _ (boehm_mem hm (by have := g.hi; omega) g.left g.right) (by
          have := g.hi; have := g.lo
          unfold boehm; rw [if_neg (by omega), if_neg (by omega)]) ha hs)
      exact ⟨N', a', k, k1, k2, fun i hi => ⟨(k3 i hi).1, (k3 i hi).2.trans
        (cutBy_sum hm g.left g.right g.hi g.lo (hr' i hi).1 (hr' i hi).2 ha)⟩⟩

/-- Coefficients in order make a form non-negative. -/
def Ordered {d : Nat} (f : V [⋀^Fin d]→ₗ[K] K) (a : Nat → V) : Prop := ∀ k : Fin d → Nat, StrictMono k → 0 ≤ f fun i => a (k i)

theorem Ordered.mono {d : Nat} {f : V [⋀^Fin d]→ₗ[K] K} {a : Nat → V} (h : Ordered f a) {k : Fin d → Nat} (hk : Monotone k) :
    0 ≤ f fun i => a (k i) := by
  by_cases hi : Function.Injective k
  · exact h k (hk.strictMono_of_injective hi)
  · refine le_of_eq (f.map_eq_zero_of_not_injective _ fun h' => hi ?_).symm
    exact fun i j hij => h' (congrArg a hij)

/-- Cutting corners does not change the sign of an alternating form. -/
theorem Ordered.cut {d : Nat} {f : V [⋀^Fin d]→ₗ[K] K} {a : Nat → V} (h : Ordered f a) {β : Nat → K} (hβ : ∀ j, 0 ≤ β j ∧ β j ≤ 1) :
    Ordered f (cutBy β a) := by
  classical
  intro k hk
  have e1 : (fun i => cutBy β a (k i)) = (fun i => β (k i) • a (k i)) + fun i => (1 - β (k i)) • a (k i - 1) := rfl
  rw [e1]
  have e2 := f.toMultilinearMap.map_add_univ (fun i => β (k i) • a (k i)) fun i => (1 - β (k i)) • a (k i - 1)
  rw [show f ((fun i => β (k i) • a (k i)) + fun i => (1 - β (k i)) • a (k i - 1)) = _ from e2]
  refine Finset.sum_nonneg fun s _ => ?_
  have e3 : s.piecewise (fun i => β (k i) • a (k i)) (fun i => (1 - β (k i)) • a (k i - 1))
      = fun i => (if i ∈ s then β (k i) else 1 - β (k i)) • a (if i ∈ s then k i else k i - 1) := by
    funext i
    by_cases hi : i ∈ s
    · rw [Finset.piecewise_eq_of_mem _ _ _ hi, if_pos hi, if_pos hi]
    · rw [Finset.piecewise_eq_of_notMem _ _ _ hi, if_neg hi, if_neg hi]
  rw [e3, f.toMultilinearMap.map_smul_univ, smul_eq_mul]
  refine mul_nonneg (Finset.prod_nonneg fun i _ => ?_) (h.mono (k := fun i => if i ∈ s then k i else k i - 1) ?_)
  · split
    · exact (hβ _).1
    · exact sub_nonneg.2 (hβ _).2
  · intro i j hij
    rcases eq_or_lt_of_le hij with rfl | hij
    · exact le_refl _
    · have := hk hij
      dsimp only
      split <;> split <;> omega

end Geom3d
