import Verif.Model.Point2

/-!
# Model of `src/utils/meshgen.rs` (advancing front)

Simplifications:
* `as u32` on emitted indices is the identity (lossless below 2^32 vertices).
* `sort_by` / `dedup_by_key` / `sort_by` / `pop` on `nearby_nodes` (`meshgen.rs:112-120`) is an oracle
  `pick`; the comparator is not a total order on NaN keys, where Rust leaves the order unspecified.  Its
  contract is `PickOk`.
* Both `while let Some(edge)` and the inner `loop` need not terminate; they take fuel.
-/

namespace Geom3d

/-- Contract of lines `meshgen.rs:112-120`: the result is the node of one of the candidates, and there is a
result unless there is no candidate. -/
structure PickOk {F : Type} (pick : List (Nat × F) → Option Nat) : Prop where
  mem : ∀ l n, pick l = some n → ∃ f, (n, f) ∈ l
  none : ∀ l, pick l = none → l = []

section
variable {F : Type} [Add F] [Sub F] [Mul F] [Div F] [Neg F] [Zero F] [One F] [NatCast F] [LT F] [DecidableLT F]
  [LE F] [DecidableLE F] [Env F]

/-- `is_segments_intersect` (`src/utils/meshgen.rs:133-152`). -/
def isSegmentsIntersect (a b c d : V2 F) : Bool :=
  if fmax c.x d.x < fmin a.x b.x ∨ fmax a.x b.x < fmin c.x d.x ∨ fmax c.y d.y < fmin a.y b.y ∨
      fmax a.y b.y < fmin c.y d.y then false
  else
    let ac := c - a
    let bc := c - b
    let ad := d - a
    let bd := d - b
    if ac.perpDot ad * bd.perpDot bc < 0 then false
    else if ac.perpDot bc * bd.perpDot ad < 0 then false
    else true

/-- `shape_factor` (`src/utils/meshgen.rs:154-159`). -/
def shapeFactor (a b c : V2 F) : F :=
  let ab := b - a
  let ac := c - a
  let bc := c - b
  ab.perpDot ac / (ab.lengthSq + ac.lengthSq + bc.lengthSq)

/-- `point_on_normal_bisector` (`src/utils/meshgen.rs:124-131`). -/
def pointOnNormalBisector (a b : V2 F) (ratio : F) : V2 F :=
  let center := (a + b) / ((2 : Nat) : F)
  let displace := (b - a).perp
  let displace := if displace.length < Env.minGrid then displace.normalize * (Env.hundredth : F) else displace
  center + displace * ratio

/-- The closure of `filter_map` (`src/utils/meshgen.rs:76-109`) for the front edge `e`. -/
def frontCandidate (start stop : Nat) (selected : Option Nat) (vertices : List (V2 F)) (a b newPoint : V2 F)
    (e : Nat × Nat) : Res (Option (Nat × F)) :=
  if selected ≠ some e.1 then do
    let inner ← (if e.1 ≠ start ∧ e.1 ≠ stop then do
      let v ← idx vertices e.1
      pure (isInsideTriangleTol v a b newPoint)
    else pure false : Res Bool)
    if inner then do
      let v ← idx vertices e.1
      pure (some (e.1, 1 + shapeFactor a b v))
    else if selected ≠ some e.2 then do
      let c ← idx vertices e.1
      let d ← idx vertices e.2
      if e.1 ≠ start ∧ e.2 ≠ start ∧ isSegmentsIntersect a newPoint c d = true then
        let fc := shapeFactor a b c
        let fd := shapeFactor a b d
        if e.1 = stop then pure (some (e.2, fd))
        else if fd < fc then pure (some (e.1, fc))
        else pure (some (e.2, fd))
      else if e.1 ≠ stop ∧ e.2 ≠ stop ∧ isSegmentsIntersect b newPoint c d = true then
        let fc := shapeFactor a b c
        let fd := shapeFactor a b d
        if e.2 = start then pure (some (e.1, fc))
        else if fd < fc then pure (some (e.1, fc))
        else pure (some (e.2, fd))
      else pure none
    else pure none
  else pure none

/-- `find_intersection_with_front` (`src/utils/meshgen.rs:61-121`). -/
def findIntersectionWithFront (pick : List (Nat × F) → Option Nat) (start stop : Nat) (selected : Option Nat)
    (front : List (Nat × Nat)) (vertices : List (V2 F)) : Res (Option Nat) := do
  let a ← idx vertices start
  let b ← idx vertices stop
  let newPoint ← (match selected with
    | some node => idx vertices node
    | none => pure (pointOnNormalBisector a b 1) : Res (V2 F))
  let nearby ← front.mapM (frontCandidate start stop selected vertices a b newPoint)
  pure (pick (nearby.filterMap id))

/-- The inner `loop` (`src/utils/meshgen.rs:27-35`). -/
def selectNode (pick : List (Nat × F) → Option Nat) (start stop : Nat) (front : List (Nat × Nat))
    (vertices : List (V2 F)) : Nat → Option Nat → Res (Option Nat)
  | 0, _ => .error .fuel
  | fuel + 1, selected => do
    match ← findIntersectionWithFront pick start stop selected front vertices with
    | some node => selectNode pick start stop front vertices fuel (some node)
    | none => pure selected

/-- `VecDeque::swap_remove_front(index)` for a valid index: the first element takes the place of the removed
one. -/
def swapRemoveFront {α : Type} (l : List α) (i : Nat) : List α :=
  match l with
  | [] => []
  | a :: t => ((a :: t).set i a).tail

/-- `src/utils/meshgen.rs:38-47`: cancel the directed edge `(u, v)` against an opposite front edge, or push
it to the front of the queue. -/
def frontAdd (front : List (Nat × Nat)) (u v : Nat) : List (Nat × Nat) :=
  match front.findIdx? (fun e => e.1 == v && e.2 == u) with
  | some i => swapRemoveFront front i
  | none => (u, v) :: front

/-- The edges of the loops (`src/utils/meshgen.rs:12-20`). -/
def initialFront (polygons : List Nat) : Res (List (Nat × Nat)) :=
  (pairs polygons).foldlM (fun front (start, stop) => do
    let last ← usub stop 1
    pure (front ++ (List.range' start (last - start)).map (fun i => (i, i + 1)) ++ [(last, start)])) []

/-- State of the advancing front. -/
structure FrontState (F : Type) where
  front : List (Nat × Nat)
  vertices : List (V2 F)
  triangles : List Nat

/-- Body of `while let Some(edge) = front.pop_back()` (`src/utils/meshgen.rs:24-56`); `front` is already
without `edge`. -/
def frontStep (pick : List (Nat × F) → Option Nat) (fuel : Nat) (s : FrontState F) (edge : Nat × Nat) :
    Res (FrontState F) := do
  let a ← idx s.vertices edge.1
  let b ← idx s.vertices edge.2
  match ← selectNode pick edge.1 edge.2 s.front s.vertices fuel none with
  | some node =>
    pure { front := frontAdd (frontAdd s.front edge.1 node) node edge.2
           vertices := s.vertices
           triangles := s.triangles ++ [edge.1, edge.2, node] }
  | none =>
    let index := s.vertices.length
    pure { front := (index, edge.2) :: (edge.1, index) :: s.front
           vertices := s.vertices ++ [pointOnNormalBisector a b Env.halfSqrt3]
           triangles := s.triangles ++ [edge.1, edge.2, index] }

/-- `while let Some(edge) = front.pop_back()` (`src/utils/meshgen.rs:23-57`). -/
def frontLoop (pick : List (Nat × F) → Option Nat) (innerFuel : Nat) :
    Nat → FrontState F → Res (FrontState F)
  | 0, _ => .error .fuel
  | fuel + 1, s =>
    match s.front.getLast? with
    | none => pure s
    | some edge => do
      let s ← frontStep pick innerFuel { s with front := s.front.dropLast } edge
      frontLoop pick innerFuel fuel s

/-- `generate_triangular_mesh` (`src/utils/meshgen.rs:6-59`). -/
def generateTriangularMesh (pick : List (Nat × F) → Option Nat) (innerFuel fuel : Nat) (points : List (V2 F))
    (polygons : List Nat) : Res (List (V2 F) × List Nat) := do
  let front ← initialFront polygons
  let s ← frontLoop pick innerFuel fuel ⟨front, points, []⟩
  pure (s.vertices, s.triangles)

end

end Geom3d
