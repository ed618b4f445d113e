import Verif.Model.Base
import Mathlib.Data.Rat.Defs
import Mathlib.Algebra.Order.Ring.Rat
import Mathlib.Algebra.Field.Rat
import Mathlib.Analysis.Real.Sqrt

/-! Exact-arithmetic instances of the environment: `ℚ` (used to exhibit concrete cases; its `sqrt` is a
dummy and never used there) and `ℝ`. -/

namespace Geom3d

instance : Env ℚ where
  tol := 1 / 10000000
  maxV := (2 ^ 53 - 1) * 2 ^ 971
  minV := -((2 ^ 53 - 1) * 2 ^ 971)
  minGrid := 1 / 1000
  hundredth := 1 / 100
  halfSqrt3 := 17320508075689 / 20000000000000
  ulpsEq a b := decide (a = b)
  sqrt _ := 0
  isNaN _ := false

noncomputable instance : Env ℝ where
  tol := 1 / 10000000
  maxV := (2 ^ 53 - 1) * 2 ^ 971
  minV := -((2 ^ 53 - 1) * 2 ^ 971)
  minGrid := 1 / 1000
  hundredth := 1 / 100
  halfSqrt3 := 17320508075689 / 20000000000000
  ulpsEq a b := decide (a = b)
  sqrt := Real.sqrt
  isNaN _ := false

end Geom3d
