/-!
# Base of the geom3d model

Panics as data, checked indexing, the number-type interface `Env`, and the `glam` vector types.

The number type `F` (`pub type Float = f64`, `src/lib.rs:1`) is a parameter with bare operations and
no laws.  Theorems instantiate it with an arbitrary `F` (law-free), a linearly ordered field, `ℝ`, or
Lean's kernel-level IEEE binary64 `Float`.
-/

namespace Geom3d

/-- Reasons for a Rust panic.  Integer overflow panics as in the debug profile. -/
inductive Panic where
  | index          -- slice / Vec / VecDeque index out of bounds
  | overflow       -- usize / u8 arithmetic overflow
  | assertion      -- assert!, assert_eq!
  | unwrap         -- Option::unwrap on None, Result::unwrap on Err
  | unreachable    -- unreachable!()
  | unimplemented  -- unimplemented!()
  | fuel           -- not a Rust panic: the step bound given to the model of an unbounded loop ran out
  deriving DecidableEq, Repr

/-- Result of a Rust function that may panic. -/
abbrev Res (α : Type) := Except Panic α

deriving instance DecidableEq for Except

/-- `v[i]` on a slice, `Vec` or `VecDeque`: panics when out of bounds. -/
def idx {α : Type} (l : List α) (i : Nat) : Res α :=
  match l[i]? with
  | some a => .ok a
  | none => .error .index

/-- `v[i] = a`: panics when out of bounds. -/
def upd {α : Type} (l : List α) (i : Nat) (a : α) : Res (List α) :=
  if i < l.length then .ok (l.set i a) else .error .index

/-- `a - b` on `usize` (or `u8`): panics on underflow (debug profile). -/
def usub (a b : Nat) : Res Nat :=
  if b ≤ a then .ok (a - b) else .error .overflow

/-- `assert!(c)`. -/
def assertR (c : Bool) : Res Unit :=
  if c then .ok () else .error .assertion

/-- `for i in a..b { body }` threading a state: `b` exclusive, empty when `b ≤ a`. -/
def forRange {σ : Type} (a b : Nat) (s : σ) (body : σ → Nat → Res σ) : Res σ :=
  (List.range' a (b - a)).foldlM body s

/-- `for i in (a..b).rev() { body }`. -/
def forRangeRev {σ : Type} (a b : Nat) (s : σ) (body : σ → Nat → Res σ) : Res σ :=
  (List.range' a (b - a)).reverse.foldlM body s

/-- `&v[a..b]`: panics unless `a <= b <= len`. -/
def slice {α : Type} (l : List α) (a b : Nat) : Res (List α) :=
  if a ≤ b ∧ b ≤ l.length then .ok ((l.take b).drop a) else .error .index

/-- `Vec::insert(i, x)`: panics when `i > len`. -/
def insertAt {α : Type} (l : List α) (i : Nat) (x : α) : Res (List α) :=
  if i ≤ l.length then .ok (l.insertIdx i x) else .error .index

/-- `slice::windows(n)` for `n ≥ 1`. -/
def windows {α : Type} (n : Nat) : List α → List (List α)
  | [] => []
  | a :: l => if n ≤ (a :: l).length then (a :: l).take n :: windows n l else []

/-- The pairs `(pair[0], pair[1])` of `slice::windows(2)`. -/
def pairs {α : Type} (l : List α) : List (α × α) := l.zip l.tail

/-- Constants and primitive operations of the number type that are not bare arithmetic.
* `tol` = `TOLERANCE` (`src/utils.rs:5`, `1.0e-7`)
* `maxV`, `minV` = `Float::MAX`, `Float::MIN`
* `minGrid` = `MIN_GRID_SIZE` (`src/utils/meshgen.rs:123`), `hundredth` = `0.01` (`meshgen.rs:128`)
* `halfSqrt3` = `consts::HALF_SQRT_3` (`src/lib.rs:31`)
* `ulpsEq` = `approx::ulps_eq!` with its default `epsilon` and `max_ulps`
* `sqrt` = `f64::sqrt`, `isNaN` = `f64::is_nan` -/
class Env (F : Type) where
  tol : F
  maxV : F
  minV : F
  minGrid : F
  hundredth : F
  halfSqrt3 : F
  ulpsEq : F → F → Bool
  sqrt : F → F
  isNaN : F → Bool

/-- Trigonometric functions (`f64::sin`, `cos`, `atan2`, `sin_cos`) and `consts::PI`, `consts::TAU`. -/
class Trig (F : Type) where
  sin : F → F
  cos : F → F
  atan2 : F → F → F
  pi : F
  tau : F

/-- `glam::DVec2` (`src/lib.rs:2`). -/
@[ext] structure V2 (F : Type) where
  x : F
  y : F
  deriving DecidableEq, Repr

/-- `glam::DVec3` (`src/lib.rs:3`). -/
@[ext] structure V3 (F : Type) where
  x : F
  y : F
  z : F
  deriving DecidableEq, Repr

/-- `glam::DVec4` (`src/lib.rs:4`). -/
@[ext] structure V4 (F : Type) where
  x : F
  y : F
  z : F
  w : F
  deriving DecidableEq, Repr

section
variable {F : Type} [Add F] [Sub F] [Mul F] [Div F] [Neg F] [Zero F] [One F]

/-! ### `glam` component-wise operators -/

instance : Add (V2 F) := ⟨fun a b => ⟨a.x + b.x, a.y + b.y⟩⟩
instance : Sub (V2 F) := ⟨fun a b => ⟨a.x - b.x, a.y - b.y⟩⟩
instance : Zero (V2 F) := ⟨⟨0, 0⟩⟩
instance : HMul F (V2 F) (V2 F) := ⟨fun s a => ⟨s * a.x, s * a.y⟩⟩
instance : HMul (V2 F) F (V2 F) := ⟨fun a s => ⟨a.x * s, a.y * s⟩⟩
instance : HDiv (V2 F) F (V2 F) := ⟨fun a s => ⟨a.x / s, a.y / s⟩⟩

instance : Add (V3 F) := ⟨fun a b => ⟨a.x + b.x, a.y + b.y, a.z + b.z⟩⟩
instance : Sub (V3 F) := ⟨fun a b => ⟨a.x - b.x, a.y - b.y, a.z - b.z⟩⟩
instance : Neg (V3 F) := ⟨fun a => ⟨-a.x, -a.y, -a.z⟩⟩
instance : Zero (V3 F) := ⟨⟨0, 0, 0⟩⟩
instance : HMul F (V3 F) (V3 F) := ⟨fun s a => ⟨s * a.x, s * a.y, s * a.z⟩⟩
instance : HMul (V3 F) F (V3 F) := ⟨fun a s => ⟨a.x * s, a.y * s, a.z * s⟩⟩
instance : HDiv (V3 F) F (V3 F) := ⟨fun a s => ⟨a.x / s, a.y / s, a.z / s⟩⟩

instance : Add (V4 F) := ⟨fun a b => ⟨a.x + b.x, a.y + b.y, a.z + b.z, a.w + b.w⟩⟩
instance : Sub (V4 F) := ⟨fun a b => ⟨a.x - b.x, a.y - b.y, a.z - b.z, a.w - b.w⟩⟩
instance : Zero (V4 F) := ⟨⟨0, 0, 0, 0⟩⟩
instance : HMul F (V4 F) (V4 F) := ⟨fun s a => ⟨s * a.x, s * a.y, s * a.z, s * a.w⟩⟩
instance : HMul (V4 F) F (V4 F) := ⟨fun a s => ⟨a.x * s, a.y * s, a.z * s, a.w * s⟩⟩

/-- `DVec2::dot`. -/
def V2.dot (a b : V2 F) : F := a.x * b.x + a.y * b.y
/-- `DVec2::perp_dot`: `a.x*b.y - a.y*b.x` (glam). -/
def V2.perpDot (a b : V2 F) : F := a.x * b.y - a.y * b.x
/-- `DVec2::perp`: rotate by 90 degrees counter-clockwise. -/
def V2.perp (a : V2 F) : V2 F := ⟨-a.y, a.x⟩
/-- `DVec2::length_squared`. -/
def V2.lengthSq (a : V2 F) : F := a.dot a

/-- `DVec3::dot`. -/
def V3.dot (a b : V3 F) : F := a.x * b.x + a.y * b.y + a.z * b.z
/-- `DVec3::cross`. -/
def V3.cross (a b : V3 F) : V3 F :=
  ⟨a.y * b.z - b.y * a.z, a.z * b.x - b.z * a.x, a.x * b.y - b.x * a.y⟩
/-- `DVec3::length_squared`. -/
def V3.lengthSq (a : V3 F) : F := a.dot a
/-- `DVec3::distance_squared`. -/
def V3.distanceSq (a b : V3 F) : F := (a - b).lengthSq
/-- `DVec3::lerp`: `self + (rhs - self) * s` (glam 0.14). -/
def V3.lerp (a b : V3 F) (s : F) : V3 F := a + (b - a) * s
/-- `DVec4::truncate`. -/
def V4.truncate (a : V4 F) : V3 F := ⟨a.x, a.y, a.z⟩

variable [Env F]
/-- `DVec2::length`. -/
def V2.length (a : V2 F) : F := Env.sqrt (a.dot a)
/-- `DVec2::normalize`: multiply by the reciprocal length. -/
def V2.normalize (a : V2 F) : V2 F := a * (1 / a.length)
/-- `DVec3::length`. -/
def V3.length (a : V3 F) : F := Env.sqrt (a.dot a)
/-- `DVec3::distance`. -/
def V3.distance (a b : V3 F) : F := (a - b).length
/-- `DVec3::normalize`: multiply by the reciprocal length. -/
def V3.normalize (a : V3 F) : V3 F := a * (1 / a.length)

end

section
variable {F : Type} [Sub F] [Neg F] [Zero F] [LT F] [LE F] [DecidableLT F] [DecidableLE F] [Env F]

/-- `f64::abs` (sign of zero ignored). -/
def fabs (x : F) : F := if x < 0 then -x else x

/-- `Tolerance::near` (`src/utils.rs:13-15`): `abs_diff_eq(other, TOLERANCE)`, i.e. `|self - other| <= TOLERANCE`. -/
def near (a b : F) : Bool := decide (fabs (a - b) ≤ Env.tol)

end

section
variable {F : Type} [Div F] [Zero F] [One F] [Env F]

/-- `utils::inv_or_zero` (`src/utils.rs:25-31`). -/
def invOrZero (delta : F) : F := if Env.ulpsEq delta 0 then 0 else 1 / delta

end

section
variable {F : Type} [LT F] [DecidableLT F]

/-- `f64::clamp(min, max)`: asserts `min <= max`; below `min` gives `min`, above `max` gives `max`. -/
def clampF [LE F] [DecidableLE F] (v lo hi : F) : Res F := do
  assertR (decide (lo ≤ hi))
  let v := if v < lo then lo else v
  pure (if hi < v then hi else v)

/-- `utils::clamp_in_range` (`src/utils.rs:33-39`). -/
def clampInRange [LE F] [DecidableLE F] (v : F) (r : F × F) : Res F :=
  if r.1 < r.2 then clampF v r.1 r.2 else clampF v r.2 r.1

/-- `f64::min` on non-NaN operands. -/
def fmin (a b : F) : F := if b < a then b else a
/-- `f64::max` on non-NaN operands. -/
def fmax (a b : F) : F := if a < b then b else a

end

end Geom3d
