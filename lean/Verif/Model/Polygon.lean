import Verif.Model.Point2

/-!
# Model of `src/utils/polygon.rs`

Simplifications:
* `as u32` on emitted indices is the identity (lossless below 2^32 points).
* `concave_points.binary_search(&x)` is an oracle `bs concave x : Option Nat` (`Ok(j)` = `some j`); which of
  several equal entries it returns is unspecified in Rust.  Its contract is `BinarySearch` below.
* `slice::sort` on `usize` is `sortNat` (the sorted permutation is unique), and the stable `sort_by` of
  `merge_polygons` is a stable insertion sort.  Its `partial_cmp(..).unwrap()` cannot fail: every key is
  `Float::MIN` or has passed `point.x > x_max`, so it is not NaN.
-/

namespace Geom3d

/-- `Convexity` (`src/utils/polygon.rs:145-149`). -/
inductive Convexity where
  | convex
  | colinear
  | concave
  deriving DecidableEq, Repr

/-- Insert into a list sorted in increasing order. -/
def insNat (a : Nat) : List Nat → List Nat
  | [] => [a]
  | b :: l => if a ≤ b then a :: b :: l else b :: insNat a l

/-- `sort()` on a vector of `usize`. -/
def sortNat : List Nat → List Nat
  | [] => []
  | a :: l => insNat a (sortNat l)

/-- The contract of `slice::binary_search` used by the theorems: `Ok(j)` points at an equal element, and on a
sorted slice `Err` means absence. -/
structure BinarySearch (bs : List Nat → Nat → Option Nat) : Prop where
  found : ∀ l x j, bs l x = some j → l[j]? = some x
  absent : ∀ l x, l.Pairwise (· ≤ ·) → bs l x = none → x ∉ l

/-- Linear search: an implementation of the contract (for concrete runs). -/
def linSearch : List Nat → Nat → Option Nat
  | [], _ => none
  | a :: l, x => if a = x then some 0 else (linSearch l x).map (· + 1)

section
variable {F : Type} [Add F] [Sub F] [Mul F] [Div F] [Neg F] [Zero F] [One F] [NatCast F] [LT F] [DecidableLT F]
  [LE F] [DecidableLE F] [Env F]

/-- `is_polygon_counter_clockwise` (`src/utils/polygon.rs:6-13`). -/
def isPolygonCcw (points : List (V2 F)) : Res Bool := do
  let last ← usub points.length 1
  let sum ← forRange 0 last (0 : F) fun sum i => do
    let p1 ← idx points (i + 1)
    let p0 ← idx points i
    pure (sum + (p1.x - p0.x) * (p0.y + p1.y))
  let p0 ← idx points 0
  let pl ← idx points last
  let sum := sum + (p0.x - pl.x) * (pl.y + p0.y)
  pure (decide (sum < 0))

/-- `compute_convexity` (`src/utils/polygon.rs:152-161`). -/
def computeConvexity (a b c : V2 F) : Convexity :=
  let product := (b - a).perpDot (c - b)
  if near product 0 then .colinear
  else if 0 < product then .convex
  else .concave

/-- `compute_vertex_convexity` (`src/utils/polygon.rs:15-35`).  `(n + i - 1).rem_euclid(n)` with `i < n`
neither underflows nor divides by zero. -/
def computeVertexConvexity (points : List (V2 F)) : Res (List Nat × List Nat) :=
  let n := points.length
  forRange 0 n (([], []) : List Nat × List Nat) fun (vertices, concave) i => do
    let a ← idx points ((n + i - 1) % n)
    let b ← idx points i
    let c ← idx points ((i + 1) % n)
    match computeConvexity a b c with
    | .convex => pure (vertices ++ [i], concave)
    | .concave => pure (vertices ++ [i], concave ++ [i])
    | .colinear => pure (vertices, concave)

/-- `points[vertices[i]]`. -/
def pointAt (points : List (V2 F)) (vertices : List Nat) (i : Nat) : Res (V2 F) := do
  let v ← idx vertices i
  idx points v

/-- `find_concave_vertices` (`src/utils/polygon.rs:37-63`); returns the concave list and the changed
`vertices`.  `VecDeque::remove(j)` does nothing when `j` is out of range, as `List.eraseIdx`. -/
def findConcaveVertices (points : List (V2 F)) (vertices : List Nat) : Res (List Nat × List Nat) := do
  let n := vertices.length
  let (toDelete, concave) ← forRange 0 n (([], []) : List Nat × List Nat) fun (toDelete, concave) i => do
    let a ← pointAt points vertices ((n + i - 1) % n)
    let b ← pointAt points vertices i
    let c ← pointAt points vertices ((i + 1) % n)
    match computeConvexity a b c with
    | .convex => pure (toDelete, concave)
    | .concave => do
      let v ← idx vertices i
      pure (toDelete, concave ++ [v])
    | .colinear => pure (toDelete ++ [i], concave)
  pure (sortNat concave, toDelete.reverse.foldl (fun vs j => vs.eraseIdx j) vertices)

/-- `is_inside_triangle` (`src/utils/polygon.rs:163-167`), without tolerance. -/
def isInsideTriangle (a b c p : V2 F) : Bool :=
  decide (0 ≤ (a - p).perpDot (b - p)) && decide (0 ≤ (b - p).perpDot (c - p)) &&
    decide (0 ≤ (c - p).perpDot (a - p))

/-- `is_ear` (`src/utils/polygon.rs:169-184`). -/
def isEar (points : List (V2 F)) (concave : List Nat) (prev curr next : Nat) : Res Bool :=
  match concave with
  | [] => pure true
  | other :: rest =>
    if other ≠ prev ∧ other ≠ next then do
      let a ← idx points prev
      let b ← idx points curr
      let c ← idx points next
      let p ← idx points other
      if isInsideTriangle a b c p then pure false
      else isEar points rest prev curr next
    else isEar points rest prev curr next

/-- The mutable variables of `trianglate_polygon`. -/
structure EarState where
  vertices : List Nat
  concave : List Nat
  triangles : List Nat
  m : Nat
  deriving DecidableEq, Repr

/-- `src/utils/polygon.rs:104-115`: update of the concave list for the previous vertex; the flag says whether
its position goes to `to_delete`. -/
def updatePrev (bs : List Nat → Nat → Option Nat) (points : List (V2 F)) (vertices concave : List Nat)
    (m i prev next : Nat) : Res (List Nat × Bool) :=
  match bs concave prev with
  | none => pure (concave, false)
  | some j => do
    let k ← usub (m + i) 2
    let pp ← idx vertices (k % m)
    let a ← idx points pp
    let b ← idx points prev
    let c ← idx points next
    match computeConvexity a b c with
    | .convex => pure (concave.eraseIdx j, false)
    | .colinear => pure (concave, true)
    | .concave => pure (concave, false)

/-- `src/utils/polygon.rs:116-127`: the same for the next vertex. -/
def updateNext (bs : List Nat → Nat → Option Nat) (points : List (V2 F)) (vertices concave : List Nat)
    (m i prev next : Nat) : Res (List Nat × Bool) :=
  match bs concave next with
  | none => pure (concave, false)
  | some j => do
    let nn ← idx vertices ((i + 2) % m)
    let a ← idx points prev
    let b ← idx points next
    let c ← idx points nn
    match computeConvexity a b c with
    | .convex => pure (concave.eraseIdx j, false)
    | .colinear => pure (concave, true)
    | .concave => pure (concave, false)

/-- `to_delete` after `sort` and `reverse` (`src/utils/polygon.rs:101-131`). -/
def deletions (m i : Nat) (dp dn : Bool) : List Nat :=
  (sortNat (i :: ((if dp then [(m + i - 1) % m] else []) ++ (if dn then [(i + 1) % m] else [])))).reverse

/-- Body of `while i < m` (`src/utils/polygon.rs:92-137`). -/
def earStep (bs : List Nat → Nat → Option Nat) (points : List (V2 F)) (s : EarState) (i : Nat) :
    Res EarState := do
  let curr ← idx s.vertices i
  match bs s.concave curr with
  | some _ => pure s
  | none => do
    let prev ← idx s.vertices ((s.m + i - 1) % s.m)
    let next ← idx s.vertices ((i + 1) % s.m)
    let ear ← isEar points s.concave prev curr next
    if ear then do
      let (concave, dp) ← updatePrev bs points s.vertices s.concave s.m i prev next
      let (concave, dn) ← updateNext bs points s.vertices concave s.m i prev next
      let del := deletions s.m i dp dn
      let m ← usub s.m del.length
      pure { vertices := del.foldl (fun vs j => vs.eraseIdx j) s.vertices
             concave := concave
             triangles := s.triangles ++ [prev, curr, next]
             m := m }
    else pure s

/-- `while i < m { .. i += 1 }` (`src/utils/polygon.rs:90-139`).  `m` never grows, so `k = m` steps starting
at `i = 0` reach `i >= m`. -/
def earPass (bs : List Nat → Nat → Option Nat) (points : List (V2 F)) : Nat → Nat → EarState → Res EarState
  | 0, _, s => pure s
  | k + 1, i, s =>
    if i < s.m then do
      let s ← earStep bs points s i
      earPass bs points k (i + 1) s
    else pure s

/-- `vertices.len() >= prev_m` (`src/utils/polygon.rs:76`); `none` stands for the initial
`prev_m = usize::MAX`. -/
def stalled (prevM : Option Nat) (len : Nat) : Bool :=
  match prevM with
  | none => false
  | some p => decide (p ≤ len)

/-- The outer `loop` (`src/utils/polygon.rs:75-140`). -/
def earLoop (bs : List Nat → Nat → Option Nat) (points : List (V2 F)) :
    Nat → Option Nat → EarState → Res EarState
  | 0, _, _ => .error .fuel
  | fuel + 1, prevM, s =>
    if stalled prevM s.vertices.length then pure s
    else
      let m := s.vertices.length
      if m < 3 then pure s
      else if m = 3 then do
        let a ← idx s.vertices 0
        let b ← idx s.vertices 1
        let c ← idx s.vertices 2
        pure { s with triangles := s.triangles ++ [a, b, c], vertices := [], m := m }
      else do
        let s ← earPass bs points m 0 { s with m := m }
        earLoop bs points fuel (some m) s

/-- `trianglate_polygon` (`src/utils/polygon.rs:66-142`), returning the final state; the Rust result is its
`triangles`.  The remaining `vertices` are kept for stating what was not triangulated (emptied when the last
three are emitted as a triangle, which Rust leaves in place and drops). -/
def triangulateState (bs : List Nat → Nat → Option Nat) (fuel : Nat) (points : List (V2 F))
    (vertices concave : List Nat) : Res EarState := do
  let _ ← usub vertices.length 2
  earLoop bs points fuel none ⟨vertices, concave, [], vertices.length⟩

/-- `trianglate_polygon` (`src/utils/polygon.rs:66-142`). -/
def triangulatePolygon (bs : List Nat → Nat → Option Nat) (fuel : Nat) (points : List (V2 F))
    (vertices concave : List Nat) : Res (List Nat) := do
  let s ← triangulateState bs fuel points vertices concave
  pure s.triangles

/-- `src/utils/polygon.rs:191-199`: largest x of the points `start..end` and its (first) index. -/
def maxXIndex (points : List (V2 F)) (start stop : Nat) : Res (F × Nat) :=
  forRange start stop ((Env.minV : F), 0) fun (xMax, iMax) index => do
    let p ← idx points index
    if xMax < p.x then pure (p.x, index) else pure (xMax, iMax)

/-- One entry of `sorted_polygons`: `(start, end, i_max, x_max)`. -/
structure LoopInfo (F : Type) where
  start : Nat
  stop : Nat
  iMax : Nat
  xMax : F

/-- Insert before the first strictly larger-or-equal key: with `sortByX` this is a stable sort. -/
def insByX (a : LoopInfo F) : List (LoopInfo F) → List (LoopInfo F)
  | [] => [a]
  | b :: l => if b.xMax < a.xMax then b :: insByX a l else a :: b :: l

/-- `sort_by(|a, b| a.3.partial_cmp(&b.3).unwrap())` (`src/utils/polygon.rs:203`): stable, increasing. -/
def sortByX : List (LoopInfo F) → List (LoopInfo F)
  | [] => []
  | a :: l => insByX a (sortByX l)

/-- `src/utils/polygon.rs:222-234`: index of the edge of `outer` nearest to `q`. -/
def nearestEdge (points : List (V2 F)) (outer : List Nat) (q : V2 F) : Res (F × Nat) :=
  forRange 0 outer.length ((Env.maxV : F), 0) fun (min, minIndex) i => do
    let a ← pointAt points outer i
    let b ← pointAt points outer ((i + 1) % outer.length)
    let distance := distanceToLineSegment2 q a b
    if distance < min then pure (distance, i) else pure (min, minIndex)

/-- `merge_two_polygons` (`src/utils/polygon.rs:215-244`). -/
def mergeTwoPolygons (points : List (V2 F)) (outer : List Nat) (start stop maxX : Nat) :
    Res (List Nat) := do
  let q ← idx points maxX
  let (_, minIndex) ← nearestEdge points outer q
  let insertPos := minIndex + 1
  let v ← idx outer minIndex
  let outer ← insertAt outer insertPos v
  let outer ← forRangeRev start (maxX + 1) outer fun o index => insertAt o insertPos index
  forRangeRev maxX stop outer fun o index => insertAt o insertPos index

/-- `merge_polygons` (`src/utils/polygon.rs:186-213`). -/
def mergePolygons (points : List (V2 F)) (polygons : List Nat) : Res (List Nat) := do
  let infos ← (pairs polygons).mapM fun (start, stop) => do
    let (xMax, iMax) ← maxXIndex points start stop
    pure (⟨start, stop, iMax, xMax⟩ : LoopInfo F)
  match (sortByX infos).reverse with
  | [] => .error .unwrap
  | outer :: inner =>
    inner.foldlM (fun vs h => mergeTwoPolygons points vs h.start h.stop h.iMax)
      (List.range' outer.start (outer.stop - outer.start))

end

end Geom3d
