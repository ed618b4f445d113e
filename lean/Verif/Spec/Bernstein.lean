import Mathlib.Data.Nat.Choose.Basic
import Mathlib.Algebra.Ring.Defs
import Mathlib.Algebra.Group.Defs

/-! Textbook Bernstein polynomials. -/

namespace Geom3d.Spec

/-- `B_{i,d}(u) = C(d,i) u^i (1-u)^(d-i)`. -/
def bernsteinPoly {K : Type} [CommRing K] (d i : Nat) (u : K) : K :=
  (d.choose i : K) * u ^ i * (1 - u) ^ (d - i)

end Geom3d.Spec
