import Verif.Model.Base
import Mathlib.Algebra.Order.Field.Basic
import Mathlib.Algebra.BigOperators.Group.List.Basic
import Mathlib.Tactic.Ring
import Mathlib.Tactic.Linarith

/-! Polygons as closed loops of points, written without reference to the model: directed edges, signed area,
triangles and segments. -/

namespace Geom3d.Spec

/-- Consecutive pairs of an open path. -/
def pathEdges {α : Type} (l : List α) : List (α × α) := l.zip l.tail

/-- Directed edges of the closed loop through `l`, the last one returning to the start. -/
def loopEdges {α : Type} : List α → List (α × α)
  | [] => []
  | a :: t => pathEdges (a :: t ++ [a])

section
variable {K : Type} [Field K] [LinearOrder K] [IsStrictOrderedRing K]

/-- `2 *` signed area swept by a directed edge as seen from the origin. -/
def cross2 (a b : V2 K) : K := a.x * b.y - b.x * a.y

/-- Twice the signed area enclosed by a closed loop (shoelace formula). -/
def area2 (l : List (V2 K)) : K := ((loopEdges l).map fun e => cross2 e.1 e.2).sum

/-- Twice the signed area of a triangle. -/
def triArea2 (a b c : V2 K) : K := (b.x - a.x) * (c.y - a.y) - (c.x - a.x) * (b.y - a.y)

/-- `p` is a convex combination of `a`, `b`, `c`. -/
def InTriangle (a b c p : V2 K) : Prop :=
  ∃ u v w : K, 0 ≤ u ∧ 0 ≤ v ∧ 0 ≤ w ∧ u + v + w = 1 ∧
    p.x = u * a.x + v * b.x + w * c.x ∧ p.y = u * a.y + v * b.y + w * c.y

/-- `p` is a point of the closed segment from `a` to `b`. -/
def OnSegment (a b p : V2 K) : Prop :=
  ∃ t : K, 0 ≤ t ∧ t ≤ 1 ∧ p.x = a.x + t * (b.x - a.x) ∧ p.y = a.y + t * (b.y - a.y)

end

end Geom3d.Spec
