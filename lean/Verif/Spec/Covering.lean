import Verif.Spec.Winding
import Verif.Spec.Mesh

/-! # Triangles by direction, and points off all lines through two vertices -/

namespace Geom3d.Spec

variable {K : Type} [Field K] [LinearOrder K] [IsStrictOrderedRing K]

/-- `x` is on no line through two different points of the list. -/
def OffChords (points : List (V2 K)) (x : V2 K) : Prop := ∀ a ∈ points, ∀ b ∈ points, a ≠ b → triArea2 a b x ≠ 0

/-- The counter-clockwise triangles of a list of vertex numbers, three for each triangle. -/
noncomputable def ccw (points : List (V2 K)) (T : List Nat) : List (Nat × Nat × Nat) :=
  open Classical in
  (triples T).filter fun t => 0 < triArea2 (points.getD t.1 0) (points.getD t.2.1 0) (points.getD t.2.2 0)

/-- The clockwise ones. -/
noncomputable def cw (points : List (V2 K)) (T : List Nat) : List (Nat × Nat × Nat) :=
  open Classical in
  (triples T).filter fun t => triArea2 (points.getD t.1 0) (points.getD t.2.1 0) (points.getD t.2.2 0) < 0

end Geom3d.Spec
