import Verif.Model.Svg

/-!
# Model of `src/model/step_reader.rs`

Parsing the file is the business of the crates `iso_10303` and `iso_10303_parts`; the parsed file is a `StepFile`, one
partial function per entity type (`reader.get_entity::<T>`) and the lists of `reader.get_entities::<T>`.  Nothing is
assumed about which types a reference answers to.  Numbers are already of type `F` (`real.0 as Float`).
-/

namespace Geom3d

/-- `EntityRef`. -/
abbrev Ref := Nat

/-- `EdgeCurve`. -/
structure StepEdgeCurve where
  edgeStart : Ref
  edgeEnd : Ref
  edgeGeometry : Ref
  sameSense : Bool

/-- `OrientedEdge`. -/
structure StepOrientedEdge where
  edgeElement : Ref
  orientation : Bool

/-- `FaceBound`. -/
structure StepFaceBound where
  bound : Ref
  orientation : Bool

/-- `AdvancedFace`. -/
structure StepAdvancedFace where
  bounds : List Ref
  faceGeometry : Ref
  sameSense : Bool

/-- `BSplineCurveWithKnots`. -/
structure StepBSplineCurve (F : Type) where
  degree : Int
  controlPoints : List Ref
  knots : List F
  multiplicities : List Int

/-- `BSplineSurface`. -/
structure StepBSplineSurface where
  uDegree : Int
  vDegree : Int
  controlPoints : List (List Ref)

/-- `RationalBSplineSurface`. -/
structure StepRationalSurface (F : Type) extends StepBSplineSurface where
  weights : List (List F)

/-- `BSplineSurfaceWithKnots`. -/
structure StepKnotSurface (F : Type) extends StepBSplineSurface where
  uKnots : List F
  vKnots : List F
  uMultiplicities : List Int
  vMultiplicities : List Int

/-- A part of a complex entity instance (`Box<dyn Any>`). -/
inductive StepPart (F : Type) where
  | bspline (s : StepBSplineSurface)
  | knots (s : StepKnotSurface F)
  | rational (s : StepRationalSurface F)
  | other

/-- `TrimmedCurve`; of the sets `trim_1`, `trim_2` the first element is used, `none` when it is not a parameter value. -/
structure StepTrimmedCurve (F : Type) where
  basisCurve : Ref
  trim1 : List (Option F)
  trim2 : List (Option F)
  senseAgreement : Bool

/-- `CompositeCurveSegment`. -/
structure StepCompositeSegment where
  parentCurve : Ref
  sameSense : Bool

/-- A parsed file. -/
structure StepFile (F : Type) where
  cartesianPoint : Ref → Option (List F)
  direction : Ref → Option (List F)
  vectorOrientation : Ref → Option Ref
  vertexGeometry : Ref → Option Ref
  axis1Placement : Ref → Option (Ref × Option Ref)
  axis2Placement3d : Ref → Option (Ref × Option Ref × Option Ref)
  line : Ref → Option (Ref × Ref)
  circle : Ref → Option (Ref × F)
  polyline : Ref → Option (List Ref)
  bsplineCurve : Ref → Option (StepBSplineCurve F)
  edgeCurve : Ref → Option StepEdgeCurve
  orientedEdge : Ref → Option StepOrientedEdge
  edgeLoop : Ref → Option (List Ref)
  faceBound : Ref → Option StepFaceBound
  plane : Ref → Option Ref
  cylindricalSurface : Ref → Option (Ref × F)
  bezierSurface : Ref → Option (List (List Ref))
  bsplineSurface : Ref → Option StepBSplineSurface
  rationalSurface : Ref → Option (StepRationalSurface F)
  knotSurface : Ref → Option (StepKnotSurface F)
  complex : Ref → Option (List (StepPart F))
  revolution : Ref → Option (Ref × Ref)
  compositeSegment : Ref → Option StepCompositeSegment
  trimmedCurve : Ref → Option (StepTrimmedCurve F)
  compositeCurves : List (List Ref)
  advancedFaces : List StepAdvancedFace

/-- `Option::unwrap`. -/
def unwrapR {α : Type} : Option α → Res α
  | some a => .ok a
  | none => .error .unwrap

/-- `x as usize` for an `i64`. -/
def i64AsUsize (n : Int) : Nat := (n % 2 ^ 64).toNat

/-- `x as u8` for an `i64`. -/
def i64AsU8 (n : Int) : Nat := (n % 256).toNat

section
variable {F : Type} [Add F] [Sub F] [Mul F] [Div F] [Neg F] [Zero F] [One F] [NatCast F] [LT F] [DecidableLT F]
  [LE F] [DecidableLE F] [Env F]

/-- `vec3` (`src/model/step_reader.rs:10-16`). -/
def vec3 (coordinates : List F) : Res (V3 F) := do
  let x ← idx coordinates 0
  let y ← idx coordinates 1
  let z ← idx coordinates 2
  pure ⟨x, y, z⟩

/-- `vec4` (`src/model/step_reader.rs:18-26`). -/
def vec4 (coordinates : List F) (weight : F) : Res (V4 F) := do
  let x ← idx coordinates 0
  let y ← idx coordinates 1
  let z ← idx coordinates 2
  pure ⟨x * weight, y * weight, z * weight, weight⟩

namespace StepFile
variable (file : StepFile F)

/-- `reader.get_entity::<CartesianPoint>(r).map(|point| vec3(point.coordinates())).unwrap()`. -/
def point (r : Ref) : Res (V3 F) := do vec3 (← unwrapR (file.cartesianPoint r))

/-- `vertex_point` (`src/model/step_reader.rs:28-34`). -/
def vertexPoint (r : Ref) : Res (V3 F) := do
  vec3 (← unwrapR ((file.vertexGeometry r).bind file.cartesianPoint))

/-- `reader.get_entity::<Direction>(r.unwrap()).map(|direction| vec3(…))`. -/
def directionOf (r : Option Ref) : Res (Option (V3 F)) := do
  match file.direction (← unwrapR r) with
  | some ratios => pure (some (← vec3 ratios))
  | none => pure none

/-- `axis1_placement` (`src/model/step_reader.rs:36-46`). -/
def axis1 (r : Ref) : Res (V3 F × Option (V3 F)) := do
  let (location, axis) ← unwrapR (file.axis1Placement r)
  let location ← file.point location
  let axis ← file.directionOf axis
  pure (location, axis)

/-- `axis2_placement_3d` (`src/model/step_reader.rs:48-66`). -/
def axis2 (r : Ref) : Res (V3 F × Option (V3 F) × Option (V3 F)) := do
  let (location, axis, refDirection) ← unwrapR (file.axis2Placement3d r)
  let location ← file.point location
  let zAxis ← file.directionOf axis
  let xAxis ← file.directionOf refDirection
  pure (location, zAxis, xAxis)

/-- `extract_points` (`src/model/step_reader.rs:68-78`). -/
def extractPoints (points : List Ref) : Res (List (V3 F)) := points.mapM file.point

/-- `extract_control_points` (`src/model/step_reader.rs:80-96`). -/
def extractControlPoints (net : List (List Ref)) : Res (List (V3 F)) := do
  pure (← net.mapM fun row => row.mapM file.point).flatten

/-- `extract_weighted_control_points` (`src/model/step_reader.rs:98-116`). -/
def extractWeightedControlPoints (net : List (List Ref)) (weights : List (List F)) : Res (List (V4 F)) := do
  pure (← (net.zip weights).mapM fun rw => (rw.1.zip rw.2).mapM fun pw => do
    vec4 (← unwrapR (file.cartesianPoint pw.1)) pw.2).flatten

/-- `extract_knot_vector` (`src/model/step_reader.rs:118-124`). -/
def extractKnotVector (knots : List F) (multiplicities : List Int) : List F :=
  KnotVector.fromValuesAndMultiplicities knots (multiplicities.map i64AsUsize)

end StepFile

/-- `Circle` as a `dyn Curve`. -/
def Circle.obj [Trig F] (c : Circle F) : CurveObj F where
  getPoint u := pure (c.getPoint u)
  project p := pure (c.project p)
  refine := Circle.refineParameterRange

namespace StepFile
variable (file : StepFile F)

/-- `extract_curve` (`src/model/step_reader.rs:126-165`). -/
def extractCurve [Trig F] (r : Ref) : Res (Option (DynCurve F)) :=
  match file.line r with
  | some (pnt, dir) => do
    let origin ← file.point pnt
    let direction ← vec3 (← unwrapR ((file.vectorOrientation dir).bind file.direction))
    pure (some (.line ⟨origin, direction⟩))
  | none => match file.circle r with
    | some (position, radius) => do
      let (center, axis, refDir) ← file.axis2 position
      let axis ← unwrapR axis
      let refDir ← unwrapR refDir
      pure (some (.other (Circle.obj ⟨center, radius, axis, refDir.normalize⟩)))
    | none => match file.polyline r with
      | some points => do
        let points ← file.extractPoints points
        pure (some (.polyline (← Polyline.new points)))
      | none => match file.bsplineCurve r with
        | some b => do
          let points ← file.extractPoints b.controlPoints
          pure (some (.bspline ⟨points, extractKnotVector b.knots b.multiplicities, i64AsU8 b.degree⟩))
        | none => pure none

/-- `extract_edge_curve` (`src/model/step_reader.rs:167-189`). -/
def extractEdgeCurve [Trig F] (r : Ref) : Res (Option (DynSegment F)) :=
  match file.edgeCurve r with
  | some edge => do
    match ← file.extractCurve edge.edgeGeometry with
    | some curve => do
      let start ← file.vertexPoint edge.edgeStart
      let stop ← file.vertexPoint edge.edgeEnd
      let u0 ← curve.obj.project start
      let u1 ← curve.obj.project stop
      pure (some ⟨curve, curve.obj.refine (u0, u1) edge.sameSense, Env.hundredth, 16⟩)
    | none => pure none
  | none => pure none

/-- `control_points_list()[0].len()`. -/
def firstRow (net : List (List Ref)) : Res Nat := do pure (← idx net 0).length

/-- State of the loop over the parts of a complex entity (`src/model/step_reader.rs:317-346`). -/
structure Parts (F : Type) where
  net : Option (List (List Ref)) := none
  degree : Option (Nat × Nat) := none
  knots : Option (List F × List F) := none
  weighted : Option (List (V4 F)) := none

/-- One turn of that loop. -/
def partStep (st : Parts F) : StepPart F → Res (Parts F)
  | .bspline s => pure { st with net := some s.controlPoints, degree := some (i64AsUsize s.uDegree, i64AsUsize s.vDegree) }
  | .knots s => pure { st with knots := some (extractKnotVector s.uKnots s.uMultiplicities,
      extractKnotVector s.vKnots s.vMultiplicities) }
  | .rational s => do
    let net ← unwrapR st.net
    pure { st with weighted := some (← file.extractWeightedControlPoints net s.weights) }
  | .other => pure st

/-- The surface of a complex entity (`src/model/step_reader.rs:316-365`); `none` falls through. -/
def complexSurface (parts : List (StepPart F)) : Res (Option (Surface F)) := do
  let st ← parts.foldlM (partStep file) {}
  match st.weighted, st.knots with
  | some weighted, some knots => do
    let g ← Grid.fromVec weighted (← firstRow (← unwrapR st.net))
    let s ← BSplineSurface.new g knots (← unwrapR st.degree)
    pure (some s.surfaceRational)
  | _, _ => pure none

/-- `extract_surface` (`src/model/step_reader.rs:191-382`): the boxed surface.  `parameter_range` and
`parameter_division` of the patch are not used by `read_model` and left out. -/
def extractSurface [Trig F] (face : StepAdvancedFace) : Res (Option (Surface F)) :=
  match file.plane face.faceGeometry with
  | some position => do
    let (origin, zAxis, xAxis) ← file.axis2 position
    let zAxis ← unwrapR zAxis
    let normal := if face.sameSense then zAxis else -zAxis
    let uAxis ← unwrapR xAxis
    pure (some (Plane.surface ⟨origin, normal, uAxis, normal.cross uAxis⟩).boxed)
  | none => match file.cylindricalSurface face.faceGeometry with
  | some (position, radius) => do
    let (origin, axis, refDir) ← file.axis2 position
    let axis ← unwrapR axis
    let refDir ← unwrapR refDir
    pure (some (Cylinder.surface ⟨origin, axis, refDir.normalize, radius⟩).boxed)
  | none => match file.bezierSurface face.faceGeometry with
  | some net => do
    let points ← file.extractControlPoints net
    let g ← Grid.fromVec points (← firstRow net)
    let s ← BezierSurface.new g
    pure (some s.surface.boxed)
  | none => match file.bsplineSurface face.faceGeometry with
  | some b => do
    let points ← file.extractControlPoints b.controlPoints
    let g ← Grid.fromVec points (← firstRow b.controlPoints)
    let s ← BSplineSurface.uniformClamped (F := F) g (i64AsUsize b.uDegree, i64AsUsize b.vDegree)
    pure (some s.surface.boxed)
  | none => match file.rationalSurface face.faceGeometry with
  | some b => do
    let points ← file.extractWeightedControlPoints b.controlPoints b.weights
    let g ← Grid.fromVec points (← firstRow b.controlPoints)
    let s ← BSplineSurface.uniformClamped (F := F) g (i64AsUsize b.uDegree, i64AsUsize b.vDegree)
    pure (some s.surfaceRational.boxed)
  | none => match file.knotSurface face.faceGeometry with
  | some b => do
    let points ← file.extractControlPoints b.controlPoints
    let g ← Grid.fromVec points (← firstRow b.controlPoints)
    let s ← BSplineSurface.new g (extractKnotVector b.uKnots b.uMultiplicities,
      extractKnotVector b.vKnots b.vMultiplicities) (i64AsUsize b.uDegree, i64AsUsize b.vDegree)
    pure (some s.surface.boxed)
  | none => do
    match ← (match file.complex face.faceGeometry with
      | some parts => file.complexSurface parts
      | none => pure none) with
    | some s => pure (some s.boxed)
    | none => match file.revolution face.faceGeometry with
      | some (sweptCurve, axisPosition) => do
        match ← file.extractCurve sweptCurve with
        | some curve => do
          let (origin, axis) ← file.axis1 axisPosition
          let axis ← unwrapR axis
          pure (some (SpinSurface.surface ⟨origin, axis, curve.obj⟩).boxed)
        | none => pure none
      | none => pure none

/-- `extract_curve_segment` (`src/model/step_reader.rs:392-417`). -/
def extractCurveSegment [Trig F] (r : Ref) : Res (Option (DynSegment F)) :=
  match (file.compositeSegment r).bind fun segment => file.trimmedCurve segment.parentCurve with
  | some trimmed => do
    match ← file.extractCurve trimmed.basisCurve with
    | some curve => do
      let param1 ← unwrapR (← unwrapR trimmed.trim1.head?)
      let param2 ← unwrapR (← unwrapR trimmed.trim2.head?)
      pure (some ⟨curve, curve.obj.refine (param1, param2) trimmed.senseAgreement, Env.hundredth, 16⟩)
    | none => pure none
  | none => pure none

/-- The edges of an edge loop (`src/model/step_reader.rs:442-449`). -/
def loopEdges [Trig F] (edgeList : List Ref) : Res (List (CurveSegment F)) := do
  let edges ← edgeList.mapM fun edge =>
    (match file.orientedEdge edge with
    | some oriented => file.extractEdgeCurve oriented.edgeElement
    | none => pure none : Res (Option (DynSegment F)))
  pure ((edges.filterMap id).map DynSegment.segment)

/-- The bounds of a face (`src/model/step_reader.rs:438-453`). -/
def faceBounds [Trig F] (bounds : List Ref) : Res (List (EdgeLoop F)) := do
  let loops ← bounds.mapM fun bound =>
    (match (file.faceBound bound).bind fun b => file.edgeLoop b.bound with
    | some edgeList => do pure (some ⟨← file.loopEdges edgeList⟩)
    | none => pure none : Res (Option (EdgeLoop F)))
  pure (loops.filterMap id)

/-- One face (`src/model/step_reader.rs:436-462`). -/
def readFace [Trig F] (face : StepAdvancedFace) : Res (Option (TrimmedSurface F)) := do
  match ← file.extractSurface face with
  | some surface => do pure (some ⟨surface, ← file.faceBounds face.bounds⟩)
  | none => pure none

/-- `ModelReader::read_model` (`src/model/step_reader.rs:423-465`) on a parsed file: the polycurves and the faces. -/
def readModel [Trig F] : Res (List (List (DynSegment F)) × List (TrimmedSurface F)) := do
  let curves ← file.compositeCurves.mapM fun segments => do
    pure ((← segments.mapM file.extractCurveSegment).filterMap id)
  let faces ← file.advancedFaces.mapM file.readFace
  pure (curves, faces.filterMap id)

end StepFile

end

end Geom3d
