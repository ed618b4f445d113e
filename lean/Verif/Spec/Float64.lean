import Verif.Model.Instances
import Mathlib.Data.Real.Basic
import Mathlib.Data.Real.Archimedean
import Mathlib.Data.Int.Log

/-!
# Binary64 numbers as real numbers

Lean's `Float` is a structure around the 64 bits of an IEEE binary64 number whose operations are ordinary definitions
(`Float.Model`, in `Init/Data/Float/Model`).  This file says which real number such a bit pattern stands for and what
rounding to binary64 is, without using any of the operations.
-/

namespace Geom3d.F64
open Float.Model

/-- The number an unpacked float stands for (`0` for infinities and NaN). -/
noncomputable def uval : UnpackedFloat → ℝ
  | .finite .positive m e _ => m * 2 ^ e
  | .finite .negative m e _ => -(m * 2 ^ e)
  | _ => 0

/-- The real number of a finite float. -/
noncomputable def val (x : Float) : ℝ := uval x.toModel.unpack

/-- Neither infinite nor NaN. -/
def IsFin (x : Float) : Prop := x.isFinite = true

/-- Not a number. -/
def IsNaN (x : Float) : Prop := x.isNaN = true

/-- The largest finite number. -/
noncomputable def maxFinite : ℝ := (2 ^ 53 - 1) * 2 ^ (971 : Int)

/-- Numbers with at most 53 significant bits and no bits below `2 ^ -1074`. -/
def Rep (c : ℝ) : Prop := ∃ (k : Int) (e : Int), |k| ≤ 2 ^ 53 ∧ -1074 ≤ e ∧ c = k * 2 ^ e

/-- Rounding of non-negative numbers to the nearest integer, ties to even. -/
noncomputable def rne (y : ℝ) : Nat :=
  if y < ⌊y⌋₊ + 1 / 2 then ⌊y⌋₊ else if (⌊y⌋₊ : ℝ) + 1 / 2 < y then ⌊y⌋₊ + 1 else ⌊y⌋₊ + ⌊y⌋₊ % 2

/-- The exponent of the last place of a number. -/
noncomputable def expo (X : ℝ) : Int := max (Int.log 2 X - 52) (-1074)

/-- Rounding of a non-negative number to 53 bits, ties to even. -/
noncomputable def rndPos (X : ℝ) : ℝ := rne (X / 2 ^ expo X) * 2 ^ expo X

/-- Rounding to 53 bits (and multiples of `2 ^ -1074`), ties to even. -/
noncomputable def rnd (X : ℝ) : ℝ := if X < 0 then -rndPos (-X) else rndPos X

/-- The real point of a point with finite coordinates. -/
noncomputable def toReal (p : V3 Float) : V3 ℝ := ⟨val p.x, val p.y, val p.z⟩

/-- All coordinates are finite and at most `M` in absolute value. -/
def Bounded (M : ℝ) (p : V3 Float) : Prop :=
  (IsFin p.x ∧ |val p.x| ≤ M) ∧ (IsFin p.y ∧ |val p.y| ≤ M) ∧ (IsFin p.z ∧ |val p.z| ≤ M)

/-- `p` has finite coordinates that differ by at most `e` from those of `q`. -/
def Near (e : ℝ) (p : V3 Float) (q : V3 ℝ) : Prop :=
  (IsFin p.x ∧ |val p.x - q.x| ≤ e) ∧ (IsFin p.y ∧ |val p.y - q.y| ≤ e) ∧ (IsFin p.z ∧ |val p.z - q.z| ≤ e)

end Geom3d.F64
