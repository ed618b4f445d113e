import Verif.Model.Step

/-! What a STEP file says about points, directions, vertices, lines, circles and edges (ISO 10303-42), read off the
entity tables. -/

namespace Geom3d.Spec

variable {F : Type}

/-- Entity `r` is the point `p`. -/
def SaysPoint (file : StepFile F) (r : Ref) (p : V3 F) : Prop := file.cartesianPoint r = some [p.x, p.y, p.z]

/-- Entity `r` is a direction with ratios `d`, of any length. -/
def SaysDirection (file : StepFile F) (r : Ref) (d : V3 F) : Prop := file.direction r = some [d.x, d.y, d.z]

/-- Entity `r` is a vertex at `p`. -/
def SaysVertex (file : StepFile F) (r : Ref) (p : V3 F) : Prop :=
  ∃ q, file.vertexGeometry r = some q ∧ SaysPoint file q p

/-- Entity `r` is the line through `o` in direction `d`. -/
def SaysLine (file : StepFile F) (r : Ref) (o d : V3 F) : Prop :=
  ∃ pnt dir q, file.line r = some (pnt, dir) ∧ SaysPoint file pnt o ∧ file.vectorOrientation dir = some q ∧
    SaysDirection file q d

/-- Entity `r` is a placement with origin `o`, z axis `a` and x axis `x`. -/
def SaysPlacement (file : StepFile F) (r : Ref) (o a x : V3 F) : Prop :=
  ∃ loc ax rf, file.axis2Placement3d r = some (loc, some ax, some rf) ∧ SaysPoint file loc o ∧
    SaysDirection file ax a ∧ SaysDirection file rf x

/-- Entity `r` is a circle with centre `o`, axis `a`, reference direction `x` and radius `rad`, and not a line. -/
def SaysCircle (file : StepFile F) (r : Ref) (o a x : V3 F) (rad : F) : Prop :=
  file.line r = none ∧ ∃ pos, file.circle r = some (pos, rad) ∧ SaysPlacement file pos o a x

/-- Entity `r` is an edge from the vertex at `s` to the vertex at `e` along the curve entity `g`. -/
def SaysEdge (file : StepFile F) (r : Ref) (s e : V3 F) (g : Ref) (sense : Bool) : Prop :=
  ∃ vs ve, file.edgeCurve r = some ⟨vs, ve, g, sense⟩ ∧ SaysVertex file vs s ∧ SaysVertex file ve e

/-- A segment starts at `s` and ends at `e`. -/
def RunsFrom (seg : DynSegment F) [Add F] [Sub F] [Mul F] [Div F] [Neg F] [Zero F] [One F] [NatCast F] [LT F]
    [DecidableLT F] [LE F] [DecidableLE F] [Env F] (s e : V3 F) : Prop :=
  seg.curve.obj.getPoint seg.parameterRange.1 = .ok s ∧ seg.curve.obj.getPoint seg.parameterRange.2 = .ok e

/-- A file without entities. -/
def emptyFile : StepFile F where
  cartesianPoint _ := none
  direction _ := none
  vectorOrientation _ := none
  vertexGeometry _ := none
  axis1Placement _ := none
  axis2Placement3d _ := none
  line _ := none
  circle _ := none
  polyline _ := none
  bsplineCurve _ := none
  edgeCurve _ := none
  orientedEdge _ := none
  edgeLoop _ := none
  faceBound _ := none
  plane _ := none
  cylindricalSurface _ := none
  bezierSurface _ := none
  bsplineSurface _ := none
  rationalSurface _ := none
  knotSurface _ := none
  complex _ := none
  revolution _ := none
  compositeSegment _ := none
  trimmedCurve _ := none
  compositeCurves := []
  advancedFaces := []

/-- The file with other orientation flags: of oriented edges, of face bounds and of composite curve segments. -/
def withFlags (file : StepFile F) (edge bound segment : Ref → Bool) : StepFile F :=
  { file with
    orientedEdge := fun r => (file.orientedEdge r).map fun e => { e with orientation := edge r }
    faceBound := fun r => (file.faceBound r).map fun b => { b with orientation := bound r }
    compositeSegment := fun r => (file.compositeSegment r).map fun s => { s with sameSense := segment r } }

end Geom3d.Spec
