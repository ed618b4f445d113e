import Verif.Model.Base
import Mathlib.Algebra.Field.Rat

/-! Cross product and determinant of three dimensional vectors, written out in coordinates independently of the model. -/

namespace Geom3d.Spec
variable {K : Type} [Field K]

/-- The right-handed cross product. -/
def cross3 (a b : V3 K) : V3 K :=
  ⟨a.y * b.z - a.z * b.y, a.z * b.x - a.x * b.z, a.x * b.y - a.y * b.x⟩

/-- The oriented volume of the parallelepiped spanned by `a`, `b`, `c`; positive iff they form a right-handed system. -/
def det3 (a b c : V3 K) : K :=
  a.x * (b.y * c.z - b.z * c.y) - a.y * (b.x * c.z - b.z * c.x) + a.z * (b.x * c.y - b.y * c.x)

/-- The coordinate axes are right-handed. -/
example : cross3 (⟨1, 0, 0⟩ : V3 ℚ) ⟨0, 1, 0⟩ = ⟨0, 0, 1⟩ ∧ det3 (⟨1, 0, 0⟩ : V3 ℚ) ⟨0, 1, 0⟩ ⟨0, 0, 1⟩ = 1 := by
  constructor
  · simp [cross3]
  · simp [det3]

end Geom3d.Spec
