import Verif.Model.Base

/-!
# IEEE binary64 instance

Lean's `Float` is defined in the kernel as IEEE binary64, so `F := Float` is the number type the Rust
code really uses.
-/

namespace Geom3d

/-- `n as f64`. -/
instance : NatCast Float := ⟨Float.ofNat⟩

/-- `approx::ulps_eq!(a, b)` on `f64` with default `epsilon = f64::EPSILON`, `max_ulps = 4` (approx 0.4.0):
absolute difference at most `EPSILON`, else equal signs and bit patterns at most 4 apart. -/
def ulpsEqF64 (a b : Float) : Bool :=
  if (fabs (F := Float) (a - b) : Float) ≤ (2.220446049250313e-16 : Float) then true
  else
    let sa := a.toBits >>> 63
    let sb := b.toBits >>> 63
    if a.isNaN || b.isNaN || sa != sb then false
    else
      let x := a.toBits.toNat
      let y := b.toBits.toNat
      decide (x ≤ y + 4 ∧ y ≤ x + 4)

/-- The constants of the crate at `f64`. -/
instance : Env Float where
  tol := 1.0e-7
  maxV := Float.ofBits 0x7FEFFFFFFFFFFFFF
  minV := Float.ofBits 0xFFEFFFFFFFFFFFFF
  minGrid := 0.001
  hundredth := 0.01
  halfSqrt3 := 1.7320508075689 / 2.0
  ulpsEq := ulpsEqF64
  sqrt := Float.sqrt
  isNaN := Float.isNaN

end Geom3d
