import Mathlib.Algebra.Field.Defs
import Mathlib.Algebra.Order.Ring.Defs
import Mathlib.Order.Defs.LinearOrder
import Verif.Model.Base

/-! Textbook B-spline basis functions (Cox–de Boor recursion), written without reference to the model. -/

namespace Geom3d.Spec

/-- The `i`-th knot of a knot vector. -/
def knot {K : Type} [Zero K] (knots : List K) (i : Nat) : K := knots.getD i 0

/-- Degree-0 basis function: indicator of the half-open span `[t_i, t_{i+1})`, where the last
non-empty span is closed on the right. -/
def inSpan {K : Type} [LT K] [LE K] (t : Nat → K) (last : K) (i : Nat) (u : K) : Prop :=
  (t i ≤ u ∧ u < t (i + 1)) ∨ (u = last ∧ t i < last ∧ t (i + 1) = last)

open Classical in
/-- Cox–de Boor recursion `N_{i,k}(u)` with the convention `x / 0 = 0`. -/
noncomputable def coxDeBoor {K : Type} [Field K] [LinearOrder K] (t : Nat → K) (last : K) :
    Nat → Nat → K → K
  | 0, i, u => if inSpan t last i u then 1 else 0
  | k + 1, i, u =>
      (u - t i) / (t (i + k + 1) - t i) * coxDeBoor t last k i u
      + (t (i + k + 2) - u) / (t (i + k + 2) - t (i + 1)) * coxDeBoor t last k (i + 1) u

/-- The polynomial piece of `N_{i,k}` on span `s`: the same recursion started from the indicator of
`i = s`, evaluated at any `u`. -/
def piece {K : Type} [Field K] (t : Nat → K) (s : Nat) : Nat → Nat → K → K
  | 0, i, _ => if i = s then 1 else 0
  | k + 1, i, u =>
      (u - t i) / (t (i + k + 1) - t i) * piece t s k i u
      + (t (i + k + 2) - u) / (t (i + k + 2) - t (i + 1)) * piece t s k (i + 1) u

/-- Non-decreasing knots. -/
def Sorted {K : Type} [LE K] (knots : List K) : Prop := knots.Pairwise (· ≤ ·)

/-- The approximate comparison used by the code decides equality on these knots, i.e. different knots
are further apart than the comparison's resolution. -/
structure Resolved {K : Type} [Sub K] [Zero K] [Env K] (knots : List K) : Prop where
  eq : ∀ a ∈ knots, ∀ b ∈ knots, (Env.ulpsEq a b = true ↔ a = b)
  sub : ∀ a ∈ knots, ∀ b ∈ knots, (Env.ulpsEq (a - b) 0 = true ↔ a = b)

end Geom3d.Spec
