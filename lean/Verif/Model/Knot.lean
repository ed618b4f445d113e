import Verif.Model.Base

/-!
# Model of `src/basis.rs` and `src/knot.rs`
-/

namespace Geom3d

section Bernstein
variable {F : Type} [Add F] [Sub F] [Mul F] [Zero F] [One F]

/-- One iteration of the inner loop of `bernstein` (`src/basis.rs:11-15`); state is `(values, saved)`. -/
def bernsteinInner (u u1 : F) (st : List F × F) (k : Nat) : Res (List F × F) := do
  let temp ← idx st.1 k
  let values ← upd st.1 k (st.2 + u1 * temp)
  pure (values, u * temp)

/-- One iteration of the outer loop of `bernstein` (`src/basis.rs:9-17`). -/
def bernsteinOuter (u u1 : F) (values : List F) (j : Nat) : Res (List F) := do
  let (values, saved) ← forRange 0 j (values, 0) (bernsteinInner u u1)
  upd values j saved

/-- `bernstein(n, u)` (`src/basis.rs:4-20`). -/
def bernstein (n : Nat) (u : F) : Res (List F) := do
  let values := List.replicate n (0 : F)
  let values ← upd values 0 1
  forRange 1 n values (bernsteinOuter u (1 - u))

end Bernstein

section Knot
variable {F : Type} [Add F] [Sub F] [Mul F] [Div F] [Zero F] [One F] [NatCast F]
  [LE F] [DecidableLE F] [Env F]

/-- `KnotVector::new` (`src/knot.rs:10-13`).  A knot vector is modelled by its list of knots. -/
def KnotVector.new (knots : List F) : Res (List F) := do
  assertR (decide (1 < knots.length))
  pure knots

/-- `KnotVector::from_values_and_multiplicities` (`src/knot.rs:15-24`). -/
def KnotVector.fromValuesAndMultiplicities (values : List F) (mults : List Nat) : List F :=
  (values.zip mults).foldl (fun knots vm => knots ++ List.replicate vm.2 vm.1) []

/-- `KnotVector::normalize` (`src/knot.rs:26-33`). -/
def KnotVector.normalize (knots : List F) : Res (List F) := do
  let start ← idx knots 0
  let last ← idx knots (← usub knots.length 1)
  let length := last - start
  pure (knots.map fun value => (value - start) / length)

/-- `KnotVector::multiplicity` (`src/knot.rs:36-38`).  Simplification: Rust only evaluates `self[i]`
while filtering, so it does not panic on an empty vector; here any out-of-range `i` panics. -/
def KnotVector.multiplicity (knots : List F) (i : Nat) : Res Nat := do
  let k ← idx knots i
  pure (knots.filter fun u => Env.ulpsEq k u).length

/-- `KnotVector::shrink` (`src/knot.rs:41-43`): the slice `[1..len-1]`. -/
def KnotVector.shrink (knots : List F) : Res (List F) := do
  let hi ← usub knots.length 1
  if 1 ≤ hi then pure ((knots.take hi).drop 1) else .error .index

/-- `KnotVector::spans` (`src/knot.rs:45-49`). -/
def KnotVector.spans (knots : List F) (degree : Nat) : Res (List F) :=
  (windows (degree + 1) knots).mapM fun span => do
    let hi ← idx span degree
    let lo ← idx span 0
    pure (hi - lo)

/-- `iter().rposition(p)`: index of the last element satisfying `p`. -/
def rposition {α : Type} (p : α → Bool) (l : List α) : Option Nat :=
  match l.reverse.findIdx? p with
  | some i => some (l.length - 1 - i)
  | none => none

/-- `KnotVector::span_index` (`src/knot.rs:52-62`). -/
def KnotVector.spanIndex (knots : List F) (u : F) : Res Nat :=
  match rposition (fun t => decide (t ≤ u)) knots with
  | some index => do
    if index = (← usub knots.length 1) then
      usub index (← KnotVector.multiplicity knots index)
    else
      pure index
  | none => KnotVector.multiplicity knots 0

/-- Body of the inner loop of `bspline_basis` (`src/knot.rs:76-81`); state is `(values, a)`. -/
def basisInner (knots : List F) (u : F) (k : Nat) (st : List F × F) (i : Nat) :
    Res (List F × F) := do
  let hi ← idx knots (i + k + 1)
  let lo ← idx knots (i + 1)
  let b := invOrZero (hi - lo) * (hi - u)
  let v ← idx st.1 i
  let v1 ← idx st.1 (i + 1)
  let values ← upd st.1 i (st.2 * v + b * v1)
  pure (values, 1 - b)

/-- Body of the outer loop of `bspline_basis` (`src/knot.rs:71-82`). -/
def basisOuter (knots : List F) (u : F) (n index : Nat) (values : List F) (k : Nat) :
    Res (List F) := do
  let base := if index < k then 0 else index - k
  let tk ← idx knots (base + k)
  let tb ← idx knots base
  let delta := tk - tb
  let max ← if index + k < n then pure index else do usub (← usub n k) 1
  let a := invOrZero delta * (u - tb)
  let st ← forRange base (max + 1) (values, a) (basisInner knots u k)
  pure st.1

/-- `KnotVector::bspline_basis` (`src/knot.rs:65-87`). -/
def KnotVector.bsplineBasis (knots : List F) (degree : Nat) (u : F) : Res (List F) := do
  let n ← usub knots.length 1
  let index ← KnotVector.spanIndex knots u
  let values := List.replicate n (0 : F)
  let values ← upd values index 1
  let values ← forRange 1 (degree + 1) values (basisOuter knots u n index)
  let m ← usub n degree
  pure (values.take m)

/-- `KnotVector::bezier_knot` (`src/knot.rs:98-103`). -/
def KnotVector.bezierKnot (degree : Nat) : List F :=
  List.replicate (degree + 1) 0 ++ List.replicate (degree + 1) 1

/-- `KnotVector::uniform_knot` (`src/knot.rs:114-121`). -/
def KnotVector.uniformKnot (degree division : Nat) : List F :=
  let step : F := 1 / (Nat.cast division : F)
  List.replicate (degree + 1) 0
    ++ (List.range' 1 (division - 1)).map (fun (i : Nat) => (Nat.cast i : F) * step)
    ++ List.replicate (degree + 1) 1

/-- `KnotVector::add_knot` (`src/knot.rs:123-134`): new vector and index of the inserted knot. -/
def KnotVector.addKnot (knots : List F) (knot : F) : List F × Nat :=
  match rposition (fun t => decide (t ≤ knot)) knots with
  | some index => (knots.insertIdx (index + 1) knot, index + 1)
  | none => (knots.insertIdx 0 knot, 0)

/-- `KnotVector::sub_vec(a..b)` (`src/knot.rs:136-142`). -/
def KnotVector.subVec (knots : List F) (a b : Nat) : Res (List F) := slice knots a b

/-- `KnotVector::range` (`src/knot.rs:145-147`). -/
def KnotVector.range (knots : List F) : Res (F × F) := do
  let lo ← idx knots 0
  let hi ← idx knots (← usub knots.length 1)
  pure (lo, hi)

end Knot

end Geom3d
