import Mathlib.Algebra.Module.BigOperators
import Mathlib.Algebra.BigOperators.Group.Finset.Basic
import Mathlib.Algebra.Order.BigOperators.Group.Finset
import Mathlib.Algebra.Module.LinearMap.Defs
import Mathlib.Algebra.Order.Ring.Defs
import Mathlib.Algebra.Field.Defs

/-! Convex combinations of a list of points, written without reference to the model. -/

namespace Geom3d.Spec

/-- `x` is a convex combination of `pts`. -/
def ConvexComb {K P : Type} [Field K] [LinearOrder K] [AddCommGroup P] [Module K P]
    (pts : List P) (x : P) : Prop :=
  ∃ w : Nat → K, (∀ i, i < pts.length → 0 ≤ w i) ∧ ∑ i ∈ Finset.range pts.length, w i = 1 ∧
    x = ∑ i ∈ Finset.range pts.length, w i • pts.getD i 0

/-- A convex combination satisfies every linear inequality satisfied by all points. -/
theorem ConvexComb.le {K P : Type} [Field K] [LinearOrder K] [IsStrictOrderedRing K] [AddCommGroup P] [Module K P]
    {pts : List P} {x : P} (h : ConvexComb (K := K) pts x) (f : P →ₗ[K] K) {b : K} (hb : ∀ p ∈ pts, f p ≤ b) :
    f x ≤ b := by
  obtain ⟨w, h1, h2, rfl⟩ := h
  rw [map_sum]
  calc ∑ i ∈ Finset.range pts.length, f (w i • pts.getD i 0)
      ≤ ∑ i ∈ Finset.range pts.length, w i * b := by
        apply Finset.sum_le_sum
        intro i hi
        rw [Finset.mem_range] at hi
        rw [map_smul, smul_eq_mul]
        apply mul_le_mul_of_nonneg_left _ (h1 i hi)
        apply hb
        simp [List.getD, hi]
    _ = b := by rw [← Finset.sum_mul, h2, one_mul]

end Geom3d.Spec
