import Verif.Spec.Polygon
import Verif.Spec.Mesh
import Mathlib.Algebra.BigOperators.Group.List.Basic

/-! Boundary chains: the sum of an antisymmetric weight over directed edges.  Two families of directed edges have the
same weights for every antisymmetric weight iff every directed edge occurs equally often in excess of its reverse. -/

namespace Geom3d

variable {α M : Type} [AddCommGroup M]

/-- An antisymmetric weight of directed edges. -/
structure Spec.Skew (φ : α → α → M) : Prop where
  anti : ∀ a b, φ a b = -φ b a
  self : ∀ a, φ a a = 0

/-- Total weight of a family of directed edges. -/
def Spec.weight (φ : α → α → M) (E : List (α × α)) : M := (E.map fun e => φ e.1 e.2).sum

end Geom3d
