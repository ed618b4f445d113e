import Verif.Model.Knot
import Verif.Model.Utils

/-!
# Model of `src/curve.rs` and `src/curve/*.rs`
-/

namespace Geom3d

/-- The accumulation loop shared by all `get_point` implementations of Bézier and B-spline curves
(`src/curve/bezier.rs:32-37,53-57`, `src/curve/bspline.rs:138-143,167-172`):
`point = ZERO; for (b, &p) in basis.zip(points) { point += b * p }`. -/
def linComb {F P : Type} [Add P] [Zero P] [HMul F P P] (basis : List F) (points : List P) : P :=
  (basis.zip points).foldl (fun point bp => point + bp.1 * bp.2) 0

/-! ### Bézier curves -/

/-- `BezierCurve` (`src/curve/bezier.rs:6-8`). -/
structure BezierCurve (P : Type) where
  controlPoints : List P
  deriving DecidableEq, Repr

section bezier
variable {F P : Type} [Add F] [Sub F] [Mul F] [Div F] [Zero F] [One F] [NatCast F]

/-- `BezierCurve::degree` (`src/curve/bezier.rs:11-13`). -/
def BezierCurve.degree (c : BezierCurve P) : Res Nat := usub c.controlPoints.length 1

/-- `BezierCurve::derivative` (`src/curve/bezier.rs:18-26`). -/
def BezierCurve.derivative [Sub P] [HMul P F P] (c : BezierCurve P) : Res (BezierCurve P) := do
  let n : F := (Nat.cast (← c.degree) : F)
  pure ⟨(pairs c.controlPoints).map fun pair => (pair.2 - pair.1) * n⟩

/-- `<BezierCurve<Point3> as Curve>::get_point` (`src/curve/bezier.rs:31-38`), and the homogeneous sum of the
rational one (`:52-57`). -/
def BezierCurve.getPoint [Add P] [Zero P] [HMul F P P] (c : BezierCurve P) (u : F) : Res P := do
  let basis ← bernstein c.controlPoints.length u
  pure (linComb basis c.controlPoints)

/-- `<BezierCurve<Point4> as Curve>::get_point` (`src/curve/bezier.rs:52-59`). -/
def BezierCurve.getPointRational (c : BezierCurve (V4 F)) (u : F) : Res (V3 F) := do
  let point ← c.getPoint u
  pure ((1 / point.w) * point.truncate)

end bezier

/-! ### B-spline curves -/

/-- `BSplineCurve` (`src/curve/bspline.rs:5-9`).  `degree` is a `u8` in Rust. -/
structure BSplineCurve (F P : Type) where
  controlPoints : List P
  knots : List F
  degree : Nat
  deriving DecidableEq, Repr

/-- `Vec::dedup_by(|a, b| same a b)`: drop `a` when it is in the same bucket as the last kept element. -/
def dedupAux {α : Type} (same : α → α → Bool) (last : α) : List α → List α
  | [] => []
  | a :: l => if same a last then dedupAux same last l else a :: dedupAux same a l

/-- `Vec::dedup_by`. -/
def dedupBy {α : Type} (same : α → α → Bool) : List α → List α
  | [] => []
  | a :: l => a :: dedupAux same a l

section bspline
variable {F P : Type} [Add F] [Sub F] [Mul F] [Div F] [Neg F] [Zero F] [One F] [NatCast F]
  [LT F] [DecidableLT F] [LE F] [DecidableLE F] [Env F]

/-- `BSplineCurve::derivative` (`src/curve/bspline.rs:20-34`). -/
def BSplineCurve.derivative [Sub P] [HMul P F P] (c : BSplineCurve F P) : Res (BSplineCurve F P) := do
  let p : F := (Nat.cast c.degree : F)
  let knots ← KnotVector.shrink c.knots
  let spans ← KnotVector.spans knots c.degree
  let controlPoints := ((pairs c.controlPoints).zip spans).map fun ps =>
    (((ps.1.2 - ps.1.1 : P) * p : P) * (invOrZero ps.2 : F) : P)
  let degree ← usub c.degree 1
  pure ⟨controlPoints, knots, degree⟩

/-- `<BSplineCurve<Point3> as Curve>::get_point` (`src/curve/bspline.rs:137-144`), and the homogeneous sum of
the rational one (`:167-172`). -/
def BSplineCurve.getPoint [Add P] [Zero P] [HMul F P P] (c : BSplineCurve F P) (u : F) : Res P := do
  let basis ← KnotVector.bsplineBasis c.knots c.degree u
  pure (linComb basis c.controlPoints)

/-- `<BSplineCurve<Point4> as Curve>::get_point` (`src/curve/bspline.rs:167-174`). -/
def BSplineCurve.getPointRational (c : BSplineCurve F (V4 F)) (u : F) : Res (V3 F) := do
  let point ← c.getPoint u
  pure ((1 / point.w) * point.truncate)

section generic
variable [Add P] [Zero P] [HMul P F P]

/-- Loop body of `BSplineCurve::add_knot` (`src/curve/bspline.rs:55-60`). -/
def addKnotBody (knots : List F) (p : Nat) (knot : F) (cps : List P) (i : Nat) : Res (List P) := do
  let hi ← idx knots (i + p + 1)
  let lo ← idx knots i
  let delta := hi - lo
  let a := (knot - lo) * invOrZero delta
  let prev ← idx cps (← usub i 1)
  let cur ← idx cps i
  upd cps i (prev * (1 - a) + cur * a)

/-- `BSplineCurve::add_knot` (`src/curve/bspline.rs:38-62`; in Rust only for `Point3`). -/
def BSplineCurve.addKnot (c : BSplineCurve F P) (knot : F) : Res (BSplineCurve F P) := do
  let p := c.degree
  let n := c.controlPoints.length
  let (knots, index) := KnotVector.addKnot c.knots knot
  if index = 0 then do
    let cps ← insertAt c.controlPoints 0 0
    pure { c with controlPoints := cps, knots := knots }
  else do
    let start := if p < index then index - p else 0
    let (cps, stop) ←
      if n < index then pure (c.controlPoints ++ [0], n + 1)
      else do
        let x ← idx c.controlPoints (index - 1)
        let cps ← insertAt c.controlPoints (index - 1) x
        pure (cps, index)
    let cps ← forRangeRev start stop cps (addKnotBody knots p knot)
    pure { c with controlPoints := cps, knots := knots }

/-- `BSplineCurve::split` (`src/curve/bspline.rs:64-95`): the new `self` and the returned right piece. -/
def BSplineCurve.split (c : BSplineCurve F P) (t : F) :
    Res (BSplineCurve F P × BSplineCurve F P) := do
  let p := c.degree
  let index ← KnotVector.spanIndex c.knots t
  let ti ← idx c.knots index
  let (t, s) ←
    if near t ti then do
      let s ← KnotVector.multiplicity c.knots index
      pure (ti, s)
    else pure (t, 0)
  let c ← forRange s (p + 1) c (fun c _ => c.addKnot t)
  let k ← KnotVector.spanIndex c.knots t
  let m := c.knots.length
  let n := c.controlPoints.length
  let knots0 ← KnotVector.subVec c.knots 0 (k + 1)
  let kp ← usub k p
  let knots1 ← KnotVector.subVec c.knots kp m
  let cps0 ← slice c.controlPoints 0 kp
  let cps1 ← slice c.controlPoints kp n
  pure (⟨cps0, knots0, c.degree⟩, ⟨cps1, knots1, c.degree⟩)

/-- `BSplineCurve::clamp` (`src/curve/bspline.rs:97-110`). -/
def BSplineCurve.clamp (c : BSplineCurve F P) : Res (BSplineCurve F P) := do
  let degree := c.degree
  let s ← KnotVector.multiplicity c.knots 0
  let c ← forRange s (degree + 1) c (fun c _ => do c.addKnot (← idx c.knots 0))
  let n := c.knots.length
  let last ← usub n 1
  let s ← KnotVector.multiplicity c.knots last
  forRange s (degree + 1) c (fun c _ => do c.addKnot (← idx c.knots last))

/-- `BSplineCurve::to_piecewise_bezier` (`src/curve/bspline.rs:112-132`). -/
def BSplineCurve.toPiecewiseBezier (c : BSplineCurve F P) : Res (List (BezierCurve P)) := do
  let bspline ← c.clamp
  let knots := dedupBy (fun a b => near a b) c.knots
  let n := knots.length
  let _cap ← usub n 1
  let (bspline, result) ← forRange 2 n (bspline, ([] : List (BezierCurve P))) (fun st i => do
    let t ← idx knots (n - i)
    let (left, piece) ← st.1.split t
    pure (left, st.2 ++ [BezierCurve.mk piece.controlPoints]))
  pure (result ++ [BezierCurve.mk bspline.controlPoints]).reverse

end generic
end bspline

/-! ### Polylines -/

/-- `Polyline` (`src/curve/polyline.rs:5-9`). -/
structure Polyline (F : Type) where
  vertices : List (V3 F)
  segmentLengths : List F
  length : F
  deriving DecidableEq, Repr

section polyline
variable {F : Type} [Add F] [Sub F] [Mul F] [Div F] [Neg F] [Zero F] [One F] [NatCast F]
  [LT F] [DecidableLT F] [LE F] [DecidableLE F] [Env F]

/-- `iter().sum::<f64>()`: left fold from zero. -/
def sumF (l : List F) : F := l.foldl (· + ·) 0

/-- `Polyline::new` (`src/curve/polyline.rs:12-24`). -/
def Polyline.new (vertices : List (V3 F)) : Res (Polyline F) := do
  assertR (decide (2 ≤ vertices.length))
  let segmentLengths := (pairs vertices).map fun pair => pair.2.distance pair.1
  pure ⟨vertices, segmentLengths, sumF segmentLengths⟩

/-- `Polyline::start` (`src/curve/polyline.rs:26-28`). -/
def Polyline.start (c : Polyline F) : Res (V3 F) := idx c.vertices 0

/-- `Polyline::end` (`src/curve/polyline.rs:30-32`). -/
def Polyline.stop (c : Polyline F) : Res (V3 F) := do idx c.vertices (← usub c.vertices.length 1)

/-- `Polyline::nearest_vertex` (`src/curve/polyline.rs:35-37`). -/
def Polyline.nearestVertex (c : Polyline F) (point : V3 F) : Nat := findNearestPoint c.vertices point

/-- The segment walk of `Polyline::get_point` (`src/curve/polyline.rs:48-56`). -/
def polylineWalk (vertices : List (V3 F)) : List F → Nat → F → Res (V3 F)
  | [], _, _ => .error .unreachable
  | s :: ss, index, length =>
    if s < length then polylineWalk vertices ss (index + 1) (length - s)
    else do
      let a ← idx vertices index
      let b ← idx vertices (index + 1)
      pure (a.lerp b (length / s))

/-- `<Polyline as Curve>::get_point` (`src/curve/polyline.rs:41-58`). -/
def Polyline.getPoint (c : Polyline F) (t : F) : Res (V3 F) :=
  if t ≤ 0 then c.start
  else if 1 ≤ t then c.stop
  else polylineWalk c.vertices c.segmentLengths 0 (t * c.length)

/-- Nearest segment search of `Polyline::project` (`src/curve/polyline.rs:64-70`); state `(min, min_index)`. -/
def nearestSegment (point : V3 F) : List (V3 F × V3 F) → Nat → F × Nat → F × Nat
  | [], _, st => st
  | pr :: prs, i, st =>
    let d := distanceToLineSegment pr.1 pr.2 point
    nearestSegment point prs (i + 1) (if d < st.1 then (d, i) else st)

/-- `<Polyline as Curve>::project` (`src/curve/polyline.rs:60-76`). -/
def Polyline.project (c : Polyline F) (point : V3 F) : Res F := do
  let minIndex := (nearestSegment point (pairs c.vertices) 0 (Env.maxV, 0)).2
  let a ← idx c.vertices minIndex
  let b ← idx c.vertices (minIndex + 1)
  let length := sumF (c.segmentLengths.take minIndex) + (point - a).dot (b - a).normalize
  clampF (length / c.length) 0 1

end polyline

/-! ### Projection onto Bézier and B-spline curves -/

section project
variable {F : Type} [Add F] [Sub F] [Mul F] [Div F] [Neg F] [Zero F] [One F] [NatCast F]
  [LT F] [DecidableLT F] [LE F] [DecidableLE F] [Env F]

/-- `<BezierCurve<Point3> as Curve>::project` (`src/curve/bezier.rs:40-47`). -/
def BezierCurve.project (c : BezierCurve (V3 F)) (point : V3 F) : Res F := do
  if (← c.degree) = 1 then do
    (← Polyline.new c.controlPoints).project point
  else do
    let der1 ← c.derivative (F := F)
    let der2 ← der1.derivative (F := F)
    findNearestParameter c.getPoint der1.getPoint der2.getPoint point (0, 1) ((← c.degree) * 4) 10

/-- `<BSplineCurve<Point3> as Curve>::project` (`src/curve/bspline.rs:146-162`). -/
def BSplineCurve.project (c : BSplineCurve F (V3 F)) (point : V3 F) : Res F := do
  if c.degree = 1 then do
    let ratio ← (← Polyline.new c.controlPoints).project point
    pure (rangeAt (← KnotVector.range c.knots) ratio)
  else do
    let der1 ← c.derivative
    let der2 ← der1.derivative
    findNearestParameter c.getPoint der1.getPoint der2.getPoint point (← KnotVector.range c.knots)
      (c.controlPoints.length * 4) 10

end project

/-! ### Lines and circles -/

section conics
variable {F : Type} [Add F] [Sub F] [Mul F] [Div F] [Zero F] [One F] [NatCast F]
  [LT F] [DecidableLT F] [LE F] [DecidableLE F]

/-- `Line` (`src/curve/line.rs:5-8`). -/
structure Line (F : Type) where
  origin : V3 F
  direction : V3 F

/-- `<Line as Curve>::get_point` (`src/curve/line.rs:11-13`). -/
def Line.getPoint (l : Line F) (u : F) : V3 F := l.origin + l.direction * u

/-- `<Line as Curve>::project` (`src/curve/line.rs:15-17`). -/
def Line.project (l : Line F) (point : V3 F) : F := (point - l.origin).dot l.direction

/-- `DQuat` as vector part and scalar part. -/
structure Quat (F : Type) where
  v : V3 F
  w : F

/-- `DQuat::from_axis_angle` (glam): `(axis * sin(angle/2), cos(angle/2))`. -/
def Quat.fromAxisAngle [Trig F] (axis : V3 F) (angle : F) : Quat F :=
  let h := angle * (1 / (Nat.cast 2 : F))
  ⟨axis * Trig.sin h, Trig.cos h⟩

/-- `DQuat * DVec3` (glam): `v*(w*w - b·b) + b*(2 v·b) + (b×v)*(2w)`. -/
def Quat.mulVec (q : Quat F) (v : V3 F) : V3 F :=
  v * (q.w * q.w - q.v.dot q.v) + q.v * (v.dot q.v * (Nat.cast 2 : F))
    + q.v.cross v * (q.w * (Nat.cast 2 : F))

/-- `Circle` (`src/curve/circle.rs:5-10`). -/
structure Circle (F : Type) where
  center : V3 F
  radius : F
  axis : V3 F
  refDir : V3 F

/-- `<Circle as Curve>::get_point` (`src/curve/circle.rs:13-16`). -/
def Circle.getPoint [Trig F] (c : Circle F) (angle : F) : V3 F :=
  c.center + (Quat.fromAxisAngle c.axis angle).mulVec c.refDir * c.radius

/-- `<Circle as Curve>::project` (`src/curve/circle.rs:18-29`). -/
def Circle.project [Trig F] [Env F] (c : Circle F) (point : V3 F) : F :=
  let yAxis := (c.axis.cross c.refDir).normalize
  let direction := point - c.center
  let x := direction.dot c.refDir
  let y := direction.dot yAxis
  let angle := Trig.atan2 y x
  if 0 ≤ angle then angle else angle + Trig.tau

/-- `<Circle as Curve>::refine_parameter_range` (`src/curve/circle.rs:32-41`). -/
def Circle.refineParameterRange [Trig F] (range : F × F) (sameSense : Bool) : F × F :=
  if sameSense ∧ range.2 < range.1 then (range.1, range.2 + Trig.tau)
  else if ¬ sameSense ∧ range.1 < range.2 then (range.1 + Trig.tau, range.2)
  else range

end conics

end Geom3d
