import Verif.Model.Base
import Mathlib.Analysis.SpecialFunctions.Complex.Arg

/-! The real trigonometric functions as an instance of the model's `Trig` interface.
`atan2 y x` is the argument of `x + iy`, in `(-π, π]`, with `atan2 0 0 = 0`. -/

namespace Geom3d

noncomputable instance : Trig ℝ where
  sin := Real.sin
  cos := Real.cos
  atan2 y x := Complex.arg ⟨x, y⟩
  pi := Real.pi
  tau := 2 * Real.pi

end Geom3d
