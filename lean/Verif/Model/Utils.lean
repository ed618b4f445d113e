import Verif.Model.Base

/-!
# Model of `src/utils.rs`
-/

namespace Geom3d

section
variable {F : Type} [Add F] [Sub F] [Mul F] [Div F] [NatCast F]

/-- Loop of `uniform_divide` (`src/utils.rs:59-63`): repeatedly add `step` and push. -/
def uniformLoop (step : F) : Nat → F → List F
  | 0, _ => []
  | n + 1, u => (u + step) :: uniformLoop step n (u + step)

/-- `uniform_divide` (`src/utils.rs:54-66`). -/
def uniformDivide (range : F × F) (division : Nat) : Res (List F) := do
  let step := (range.2 - range.1) / (Nat.cast division : F)
  let m ← usub division 1
  pure (range.1 :: uniformLoop step m range.1 ++ [range.2])

/-- `range_at` (`src/utils.rs:86-88`). -/
def rangeAt (r : F × F) (ratio : F) : F := r.1 + (r.2 - r.1) * ratio

end

section
variable {F : Type} [Add F] [Sub F] [Mul F] [Div F] [Zero F] [One F] [NatCast F] [LT F] [DecidableLT F]
  [LE F] [DecidableLE F] [Env F]

/-- The ratio `p` drawn in `parameter_division` (`src/utils.rs:70`): `0.5 + (0.2 * r - 0.1)` with
`r = rand::random()` in `[0, 1)`.  The three constants are written as quotients. -/
def drawRatio (r : F) : F :=
  1 / (Nat.cast 2 : F) + (1 / (Nat.cast 5 : F) * r - 1 / (Nat.cast 10 : F))

/-- `parameter_division` (`src/utils.rs:69-84`).  `rnd path` is the random number drawn by the recursive
call at address `path` (each call draws exactly once, so this covers every outcome of the generator);
`fuel` bounds the recursion depth. -/
def parameterDivision (getPoint : F → Res (V3 F)) (rnd : List Bool → F) (tol : F) :
    Nat → List Bool → F × F → Res (List F)
  | 0, _, _ => .error .fuel
  | fuel + 1, path, range => do
    let p := drawRatio (rnd path)
    let t := rangeAt range p
    let pt0 ← getPoint range.1
    let pt1 ← getPoint range.2
    let mid := pt0 + (pt1 - pt0) * p
    let ptT ← getPoint t
    if ptT.distance mid < tol then
      pure [range.1, range.2]
    else do
      let mid := (range.1 + range.2) / (Nat.cast 2 : F)
      let res ← parameterDivision getPoint rnd tol fuel (path ++ [false]) (range.1, mid)
      let rest ← parameterDivision getPoint rnd tol fuel (path ++ [true]) (mid, range.2)
      pure (res.dropLast ++ rest)

/-- Loop of `find_nearest_point` (`src/utils.rs:94-100`); state is `(min, min_index)`, `i` the index. -/
def nearestLoop (point : V3 F) : List (V3 F) → Nat → F × Nat → F × Nat
  | [], _, st => st
  | v :: vs, i, st =>
    let d := (point - v).lengthSq
    nearestLoop point vs (i + 1) (if d < st.1 then (d, i) else st)

/-- `find_nearest_point` (`src/utils.rs:90-103`). -/
def findNearestPoint (points : List (V3 F)) (point : V3 F) : Nat :=
  (nearestLoop point points 0 (Env.maxV, 0)).2

/-- Inner loop of `find_nearest_point_in_grid` (`src/utils.rs:110-116`). -/
def nearestRowLoop (point : V3 F) (i : Nat) : List (V3 F) → Nat → F × (Nat × Nat) → F × (Nat × Nat)
  | [], _, st => st
  | v :: vs, j, st =>
    let d := (point - v).lengthSq
    nearestRowLoop point i vs (j + 1) (if d < st.1 then (d, (i, j)) else st)

/-- Outer loop of `find_nearest_point_in_grid` (`src/utils.rs:109-117`). -/
def nearestGridLoop (point : V3 F) : List (List (V3 F)) → Nat → F × (Nat × Nat) → F × (Nat × Nat)
  | [], _, st => st
  | row :: rows, i, st => nearestGridLoop point rows (i + 1) (nearestRowLoop point i row 0 st)

/-- `find_nearest_point_in_grid` (`src/utils.rs:105-119`).  The grid is its list of rows. -/
def findNearestPointInGrid (grid : List (List (V3 F))) (point : V3 F) : Nat × Nat :=
  (nearestGridLoop point grid 0 (Env.maxV, (0, 0))).2

/-- `distance_to_line_segment` (`src/utils.rs:121-133`). -/
def distanceToLineSegment (a b p : V3 F) : F :=
  let ap := p - a
  let ab := b - a
  let product := ap.dot ab
  if product ≤ 0 then ap.length
  else if ab.lengthSq ≤ product then (p - b).length
  else (ap.cross ab).length / ab.length

/-- `get_min_max_by_key` (`src/utils.rs:172-185`); state is `(max, min)`. -/
def getMinMaxByKey {α : Type} (items : List α) (key : α → F) : F × F :=
  let st := items.foldl (fun (st : F × F) item =>
    let value := key item
    (if st.1 < value then value else st.1, if value < st.2 then value else st.2))
    (Env.minV, Env.maxV)
  (st.2, st.1)

variable [Neg F]

/-- Newton loop of `find_nearest_parameter` (`src/utils.rs:156-169`). -/
def newtonLoop (curve der1 der2 : F → Res (V3 F)) (point : V3 F) (range : F × F) :
    Nat → F → Res F
  | 0, u => .ok u
  | trials + 1, u => do
    let delta := (← curve u) - point
    if near delta.lengthSq 0 then pure u
    else do
      let tangent ← der1 u
      let f := tangent.dot delta
      if near f 0 then pure u
      else do
        let fprime := (← der2 u).dot delta + tangent.lengthSq
        let u ← clampInRange (u - f / fprime) range
        newtonLoop curve der1 der2 point range trials u

/-- `find_nearest_parameter` (`src/utils.rs:137-170`). -/
def findNearestParameter (curve der1 der2 : F → Res (V3 F)) (point : V3 F) (range : F × F)
    (division trials : Nat) : Res F := do
  let parameters ← uniformDivide range division
  let pts ← parameters.mapM curve
  let u ← idx parameters (findNearestPoint pts point)
  newtonLoop curve der1 der2 point range trials u

end

end Geom3d
