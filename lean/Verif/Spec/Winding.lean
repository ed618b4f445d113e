import Verif.Spec.Polygon

/-!
# Winding numbers

The number of times a closed polygon runs around a point, counted by the edges crossing the horizontal ray from the
point to the right.
-/

namespace Geom3d.Spec

variable {K : Type} [Field K] [LinearOrder K] [IsStrictOrderedRing K]

/-- How the edge from `a` to `b` crosses the ray from `x` to the right: `1` upwards, `-1` downwards, `0` if it
does not. -/
def crossing (x a b : V2 K) : ℤ :=
  if a.y ≤ x.y ∧ x.y < b.y ∧ 0 < triArea2 a b x then 1
  else if b.y ≤ x.y ∧ x.y < a.y ∧ triArea2 a b x < 0 then -1
  else 0

/-- The winding number of the closed polygon `l` around `x`. -/
def winding (l : List (V2 K)) (x : V2 K) : ℤ := ((loopEdges l).map fun e => crossing x e.1 e.2).sum

/-- The number of triangles of the list `T` of vertex numbers, three for each triangle, that contain `x`. -/
noncomputable def covering (points : List (V2 K)) (T : List (Nat × Nat × Nat)) (x : V2 K) : Nat :=
  open Classical in
  (T.filter fun t => InTriangle (points.getD t.1 0) (points.getD t.2.1 0) (points.getD t.2.2 0) x).length

end Geom3d.Spec
