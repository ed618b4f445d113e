import Verif.Model.Curve
import Verif.Model.Mesh
import Verif.Model.Polygon
import Verif.Model.Meshgen

/-!
# Model of `src/surface.rs`, `src/surface/*.rs` and `src/face.rs`

Trait objects are records of their methods.  Everything `trim` leaves unspecified (random numbers, `binary_search`
among equal elements, sort order on NaN keys, step bounds of unbounded loops, whether `bound.obj` can be written) is
collected in `TrimOracle`.
-/

namespace Geom3d

section
variable {F : Type}

/-- `dyn Curve` (`src/curve.rs:5-16`). -/
structure CurveObj (F : Type) where
  getPoint : F → Res (V3 F)
  project : V3 F → Res F
  refine : F × F → Bool → F × F := fun range _ => range

/-- `CurveSegment` (`src/curve.rs:33-38`). -/
structure CurveSegment (F : Type) where
  curve : CurveObj F
  parameterRange : F × F
  tolerance : F
  parameterDivision : Nat

/-- `EdgeLoop` (`src/surface.rs:69-72`). -/
structure EdgeLoop (F : Type) where
  edges : List (CurveSegment F)

/-- What `trim` leaves open: `rnd l e` are the random numbers drawn while dividing edge `e` of loop `l`. -/
structure TrimOracle (F : Type) where
  rnd : Nat → Nat → List Bool → F
  divFuel : Nat
  bs : List Nat → Nat → Option Nat
  earFuel : Nat
  pick : List (Nat × F) → Option Nat
  innerFuel : Nat
  meshFuel : Nat
  boundWritable : Bool

/-- `dyn Surface` (`src/surface.rs:6-18`) with its default methods. -/
structure Surface (F : Type) where
  getPoint : F → F → Res (V3 F)
  getNormals : List (V2 F) → Res (List (V3 F)) := fun _ => pure []
  trim : TrimOracle F → List (EdgeLoop F) → Res (TriangleMesh F) := fun _ _ => pure TriangleMesh.new

/-- `impl Surface for Box<dyn Surface>` (`src/surface.rs:22-30`): forwards `get_point` and `trim` only. -/
def Surface.boxed (s : Surface F) : Surface F where
  getPoint := s.getPoint
  trim := s.trim

/-- `SurfacePatch` (`src/surface.rs:34-40`). -/
structure SurfacePatch (F : Type) where
  surface : Surface F
  parameterRange : (F × F) × (F × F)
  parameterDivision : Nat × Nat

end

section
variable {F : Type} [Add F] [Sub F] [Mul F] [Div F] [Neg F] [Zero F] [One F] [NatCast F] [LT F] [DecidableLT F]
  [LE F] [DecidableLE F] [Env F]

/-! ### `CurveSegment::get_points`, `EdgeLoop::to_polygon` -/

/-- `CurveSegment::get_points` (`src/curve.rs:40-59`). -/
def CurveSegment.getPoints (fuel : Nat) (rnd : List Bool → F) (s : CurveSegment F) : Res (List (V3 F)) := do
  let parameters ← Geom3d.parameterDivision s.curve.getPoint rnd s.tolerance fuel [] s.parameterRange
  parameters.mapM s.curve.getPoint

/-- `src/surface.rs:81-88`: deduplicate consecutive points and drop the last when it repeats the first. -/
def closePolygon (vertices : List (V3 F)) : Res (List (V3 F)) := do
  let vertices := dedupBy (fun a b => near (a.distanceSq b) 0) vertices
  let first ← idx vertices 0
  let last ← idx vertices (← usub vertices.length 1)
  pure (if near (first.distanceSq last) 0 then vertices.dropLast else vertices)

/-- `EdgeLoop::to_polygon` (`src/surface.rs:76-89`). -/
def EdgeLoop.toPolygon (fuel : Nat) (rnd : Nat → List Bool → F) (l : EdgeLoop F) : Res (List (V3 F)) := do
  let points ← l.edges.zipIdx.mapM fun (edge, i) => edge.getPoints fuel (rnd i)
  closePolygon points.flatten

/-- The `map` closure at the start of every `trim` (`src/surface/plane.rs:26-40`, `cylinder.rs:55-69`,
`bspline.rs:210-224`): all boundary vertices and the offsets of the non-empty loops.  State is `(vertices, polygons,
end)`. -/
def collectLoops (o : TrimOracle F) (bounds : List (EdgeLoop F)) : Res (List (V3 F) × List Nat) := do
  let st ← bounds.zipIdx.foldlM (fun (st : List (V3 F) × List Nat × Nat) (b : EdgeLoop F × Nat) => do
    let polygon ← b.1.toPolygon o.divFuel (o.rnd b.2)
    if 0 < polygon.length then
      pure (st.1 ++ polygon, st.2.1 ++ [st.2.2 + polygon.length], st.2.2 + polygon.length)
    else pure (st.1 ++ polygon, st.2.1, st.2.2)) ([], [0], 0)
  pure (st.1, st.2.1)

/-! ### Surface patches and faces -/

/-- The parameter pairs (`src/face.rs:19-25`, `src/surface.rs:54-64`), row by row. -/
def gridParams (us vs : List F) : List (V2 F) := us.flatMap fun u => vs.map fun v => ⟨u, v⟩

/-- `SurfacePatch::get_points` (`src/surface.rs:44-49`). -/
def SurfacePatch.getPoints (p : SurfacePatch F) (params : List (V2 F)) : Res (List (V3 F)) :=
  params.mapM fun q => p.surface.getPoint q.x q.y

/-- `SurfacePatch::get_point_grid` (`src/surface.rs:51-66`). -/
def SurfacePatch.getPointGrid (p : SurfacePatch F) : Res (Grid (V3 F)) := do
  let us ← uniformDivide p.parameterRange.1 p.parameterDivision.1
  let vs ← uniformDivide p.parameterRange.2 p.parameterDivision.2
  let points ← (gridParams us vs).mapM fun q => p.surface.getPoint q.x q.y
  Grid.fromVec points (p.parameterDivision.2 + 1)

/-- `DVec3::is_nan`. -/
def V3.isNaN (a : V3 F) : Bool := Env.isNaN a.x || Env.isNaN a.y || Env.isNaN a.z

/-- `neighbors.into_iter().find_map(..)` (`src/face.rs:47-54`). -/
def findNeighbor (normals : List (V3 F)) (cols : Nat) : List (Nat × Nat) → Res (Option (V3 F))
  | [] => pure none
  | (r, c) :: rest => do
    let n ← idx normals (r * cols + c)
    if n.isNaN then findNeighbor normals cols rest else pure (some n)

/-- Body of the repair loop (`src/face.rs:31-58`). -/
def repairStep (rows cols : Nat) (normals : List (V3 F)) (i : Nat) : Res (List (V3 F)) := do
  let n ← idx normals i
  if n.isNaN then do
    let row := i / cols
    let col := i % cols
    let lastRow ← usub rows 1
    let lastCol ← usub cols 1
    let neighbors :=
      (if 0 < row then [(row - 1, col)] else []) ++ (if row < lastRow then [(row + 1, col)] else [])
      ++ (if 0 < col then [(row, col - 1)] else []) ++ (if col < lastCol then [(row, col + 1)] else [])
    match ← findNeighbor normals cols neighbors with
    | some normal => upd normals i normal
    | none => pure normals
  else pure normals

/-- The NaN repair loop (`src/face.rs:30-59`). -/
def repairNormals (rows cols : Nat) (normals : List (V3 F)) : Res (List (V3 F)) :=
  forRange 0 normals.length normals (repairStep rows cols)

/-- `<SurfacePatch as Face>::get_triangle_mesh` (`src/face.rs:15-66`). -/
def SurfacePatch.getTriangleMesh (p : SurfacePatch F) : Res (TriangleMesh F) := do
  let us ← uniformDivide p.parameterRange.1 p.parameterDivision.1
  let vs ← uniformDivide p.parameterRange.2 p.parameterDivision.2
  let params := gridParams us vs
  let points ← p.getPoints params
  let normals ← p.surface.getNormals params
  let grid ← Grid.fromVec points (p.parameterDivision.2 + 1)
  let triangles ← createTriangles grid
  let normals ← repairNormals grid.rows grid.cols normals
  pure ⟨grid.data, normals, triangles⟩

/-- `TrimmedSurface` (`src/surface.rs:92-97`) and its mesh (`src/face.rs:68-72`). -/
structure TrimmedSurface (F : Type) where
  surface : Surface F
  bounds : List (EdgeLoop F)

/-- `<TrimmedSurface as Face>::get_triangle_mesh` (`src/face.rs:69-71`). -/
def TrimmedSurface.getTriangleMesh (o : TrimOracle F) (t : TrimmedSurface F) : Res (TriangleMesh F) :=
  t.surface.trim o t.bounds

/-! ### Bézier and B-spline surfaces -/

/-- The double loop `point += basis_u[i] * basis_v[j] * control_points[i][j]` (`src/surface/bezier.rs:22-28`,
`:39-45`, `src/surface/bspline.rs:177-183`, `:288-294`). -/
def netSum {P : Type} [Add P] [Zero P] [HMul F P P] (g : Grid P) (bu bv : List F) : Res P :=
  forRange 0 g.rows (0 : P) fun point i =>
    forRange 0 g.cols point fun point j => do
      let p ← g.at i j
      let a ← idx bu i
      let b ← idx bv j
      pure (point + (a * b) * p)

/-- `BezierSurface` (`src/surface/bezier.rs:6-8`). -/
structure BezierSurface (P : Type) where
  controlPoints : Grid P
  deriving DecidableEq, Repr

/-- `BezierSurface::new` (`src/surface/bezier.rs:11-14`). -/
def BezierSurface.new {P : Type} (g : Grid P) : Res (BezierSurface P) := do
  assertR (decide (1 < g.rows ∧ 1 < g.cols))
  pure ⟨g⟩

/-- `<BezierSurface<Point3> as Surface>::get_point` (`src/surface/bezier.rs:18-30`), and the homogeneous sum of the
rational one. -/
def BezierSurface.getPoint {P : Type} [Add P] [Zero P] [HMul F P P] (s : BezierSurface P) (u v : F) : Res P := do
  let bu ← bernstein s.controlPoints.rows u
  let bv ← bernstein s.controlPoints.cols v
  netSum s.controlPoints bu bv

/-- `<BezierSurface<Point4> as Surface>::get_point` (`src/surface/bezier.rs:35-47`). -/
def BezierSurface.getPointRational (s : BezierSurface (V4 F)) (u v : F) : Res (V3 F) := do
  let point ← s.getPoint u v
  pure ((1 / point.w) * point.truncate)

/-- `BSplineSurface` (`src/surface/bspline.rs:8-12`); the degrees are `u8`. -/
structure BSplineSurface (F P : Type) where
  controlPoints : Grid P
  knots : List F × List F
  degree : Nat × Nat
  deriving DecidableEq, Repr

/-- `x as u8`. -/
def asU8 (n : Nat) : Nat := n % 256

/-- `BSplineSurface::new` (`src/surface/bspline.rs:15-28`). -/
def BSplineSurface.new {P : Type} (g : Grid P) (knots : List F × List F) (degree : Nat × Nat) :
    Res (BSplineSurface F P) := do
  assertR (decide (g.rows + degree.1 + 1 = knots.1.length))
  assertR (decide (g.cols + degree.2 + 1 = knots.2.length))
  pure ⟨g, knots, (asU8 degree.1, asU8 degree.2)⟩

/-- `BSplineSurface::uniform_clamped` (`src/surface/bspline.rs:30-41`). -/
def BSplineSurface.uniformClamped {P : Type} (g : Grid P) (degree : Nat × Nat) : Res (BSplineSurface F P) := do
  assertR (decide (degree.1 < g.rows ∧ degree.2 < g.cols))
  pure ⟨g, (KnotVector.uniformKnot degree.1 (g.rows - degree.1), KnotVector.uniformKnot degree.2 (g.cols - degree.2)),
    (asU8 degree.1, asU8 degree.2)⟩

/-- `<BSplineSurface<Point3> as Surface>::get_point` (`src/surface/bspline.rs:171-185`), and the homogeneous sum of
the rational one. -/
def BSplineSurface.getPoint {P : Type} [Add P] [Zero P] [HMul F P P] (s : BSplineSurface F P) (u v : F) : Res P := do
  let bu ← KnotVector.bsplineBasis s.knots.1 s.degree.1 u
  let bv ← KnotVector.bsplineBasis s.knots.2 s.degree.2 v
  netSum s.controlPoints bu bv

/-- `<BSplineSurface<Point4> as Surface>::get_point` (`src/surface/bspline.rs:282-296`). -/
def BSplineSurface.getPointRational (s : BSplineSurface F (V4 F)) (u v : F) : Res (V3 F) := do
  let point ← s.getPoint u v
  pure ((1 / point.w) * point.truncate)

section derivative
variable {P : Type} [Sub P] [Zero P] [HMul P F P]

/-- `BSplineSurface::derivative_u` (`src/surface/bspline.rs:48-76`); `P::default()` is the zero vector. -/
def BSplineSurface.derivativeU (s : BSplineSurface F P) : Res (BSplineSurface F P) :=
  if s.degree.1 = 0 then do
    let g ← Grid.fromVec (List.replicate 4 (0 : P)) 2
    BSplineSurface.uniformClamped g (1, 1)
  else do
    let p ← usub s.degree.1 1
    let uKnots ← KnotVector.shrink s.knots.1
    let uSpans ← KnotVector.spans uKnots s.degree.1
    let n1 ← usub s.controlPoints.rows 1
    let points ← forRange 0 n1 ([] : List P) fun points i =>
      forRange 0 s.controlPoints.cols points fun points j => do
        let b ← s.controlPoints.at (i + 1) j
        let a ← s.controlPoints.at i j
        let span ← idx uSpans i
        pure (points ++ [((b - a : P) * (Nat.cast s.degree.1 : F) : P) * (invOrZero span : F)])
    let g ← Grid.fromVec points s.controlPoints.cols
    pure ⟨g, (uKnots, s.knots.2), (p, s.degree.2)⟩

/-- `BSplineSurface::derivative_v` (`src/surface/bspline.rs:78-106`). -/
def BSplineSurface.derivativeV (s : BSplineSurface F P) : Res (BSplineSurface F P) :=
  if s.degree.2 = 0 then do
    let g ← Grid.fromVec (List.replicate 4 (0 : P)) 2
    BSplineSurface.uniformClamped g (1, 1)
  else do
    let q ← usub s.degree.2 1
    let vKnots ← KnotVector.shrink s.knots.2
    let vSpans ← KnotVector.spans vKnots s.degree.2
    let m1 ← usub s.controlPoints.cols 1
    let points ← forRange 0 s.controlPoints.rows ([] : List P) fun points i =>
      forRange 0 m1 points fun points j => do
        let b ← s.controlPoints.at i (j + 1)
        let a ← s.controlPoints.at i j
        let span ← idx vSpans j
        pure (points ++ [((b - a : P) * (Nat.cast s.degree.2 : F) : P) * (invOrZero span : F)])
    let g ← Grid.fromVec points m1
    pure ⟨g, (s.knots.1, vKnots), (s.degree.1, q)⟩

end derivative

/-- `<BSplineSurface<Point3> as Surface>::get_normals` (`src/surface/bspline.rs:187-200`). -/
def BSplineSurface.getNormals (s : BSplineSurface F (V3 F)) (params : List (V2 F)) : Res (List (V3 F)) := do
  let derU ← s.derivativeU
  let derV ← s.derivativeV
  params.mapM fun p => do
    let a ← derU.getPoint p.x p.y
    let b ← derV.getPoint p.x p.y
    pure (a.cross b).normalize

/-- `Mat2::from_cols_array(&[fu, gu, fv, gv]).inverse() * k` (glam: adjugate times reciprocal determinant). -/
def newtonDelta (fu gu fv gv : F) (k : V2 F) : V2 F :=
  let invDet := 1 / (fu * gv - gu * fv)
  ⟨gv * invDet * k.x + fv * (-invDet) * k.y, gu * (-invDet) * k.x + fu * invDet * k.y⟩

/-- The surfaces evaluated by `project_points`: the surface and its partial derivatives. -/
structure SurfaceJet (F : Type) where
  s : F → F → Res (V3 F)
  su : F → F → Res (V3 F)
  sv : F → F → Res (V3 F)
  suu : F → F → Res (V3 F)
  suv : F → F → Res (V3 F)
  svu : F → F → Res (V3 F)
  svv : F → F → Res (V3 F)

/-- Newton loop of `project_points` (`src/surface/bspline.rs:137-163`). -/
def newtonLoop2 (d : SurfaceJet F) (point : V3 F) (uRange vRange : F × F) : Nat → F → F → Res (V2 F)
  | 0, u, v => pure ⟨u, v⟩
  | trials + 1, u, v => do
    let r := (← d.s u v) - point
    if near r.lengthSq 0 then pure ⟨u, v⟩
    else do
      let su ← d.su u v
      let sv ← d.sv u v
      if near (su.dot r) 0 && near (sv.dot r) 0 then pure ⟨u, v⟩
      else do
        let suu ← d.suu u v
        let suv ← d.suv u v
        let svu ← d.svu u v
        let svv ← d.svv u v
        let fu := su.lengthSq + r.dot suu
        let gu := su.dot sv + r.dot svu
        let fv := su.dot sv + r.dot suv
        let gv := sv.lengthSq + r.dot svv
        let delta := newtonDelta fu gu fv gv ⟨-(r.dot su), -(r.dot sv)⟩
        let u ← clampInRange (u + delta.x) uRange
        let v ← clampInRange (v + delta.y) vRange
        newtonLoop2 d point uRange vRange trials u v

/-- `BSplineSurface::project_points` (`src/surface/bspline.rs:110-166`). -/
def BSplineSurface.projectPoints (s : BSplineSurface F (V3 F)) (points : List (V3 F)) : Res (List (V2 F)) := do
  let derU ← s.derivativeU
  let derV ← s.derivativeV
  let derUU ← derU.derivativeU
  let derUV ← derU.derivativeV
  let derVU ← derV.derivativeU
  let derVV ← derV.derivativeV
  let uRange ← KnotVector.range s.knots.1
  let vRange ← KnotVector.range s.knots.2
  let us ← uniformDivide uRange (s.controlPoints.rows * 4)
  let vs ← uniformDivide vRange (s.controlPoints.cols * 4)
  let samples ← (gridParams us vs).mapM fun q => s.getPoint q.x q.y
  let vertices ← Grid.fromVec samples (s.controlPoints.cols * 4 + 1)
  points.mapM fun point => do
    let (i, j) := findNearestPointInGrid vertices.rowList point
    let u ← idx us i
    let v ← idx vs j
    newtonLoop2 ⟨s.getPoint, derU.getPoint, derV.getPoint, derUU.getPoint, derUV.getPoint, derVU.getPoint,
      derVV.getPoint⟩ point uRange vRange 20 u v

/-! ### Trimming -/

/-- `vertices.extend(points[boundary_point_count..].iter().map(f))`. -/
def extendVertices (vertices : List (V3 F)) (points : List (V2 F)) (count : Nat) (f : V2 F → Res (V3 F)) :
    Res (List (V3 F)) := do
  let tail ← slice points count points.length
  let new ← tail.mapM f
  pure (vertices ++ new)

/-- The second half of `trim` of cylinders (`src/surface/cylinder.rs:78-127`) and B-spline surfaces
(`src/surface/bspline.rs:227-275`): `lift` maps new points back for a single loop, `liftHoles` for several loops. -/
def frontTrim (o : TrimOracle F) (vertices : List (V3 F)) (points : List (V2 F)) (polygons : List Nat)
    (lift liftHoles : V2 F → Res (V3 F)) : Res (TriangleMesh F) := do
  let count := points.length
  if polygons.length = 2 then do
    if ← isPolygonCcw points then do
      let (points, triangles) ← generateTriangularMesh o.pick o.innerFuel o.meshFuel points polygons
      let vertices ← extendVertices vertices points count lift
      (⟨vertices, [], triangles⟩ : TriangleMesh F).reverseWindingDirection
    else do
      let vertices := vertices.reverse
      let (points, triangles) ← generateTriangularMesh o.pick o.innerFuel o.meshFuel points.reverse polygons
      let vertices ← extendVertices vertices points count lift
      pure ⟨vertices, [], triangles⟩
  else if 2 < polygons.length then do
    let (points, triangles) ← generateTriangularMesh o.pick o.innerFuel o.meshFuel points polygons
    let vertices ← extendVertices vertices points count liftHoles
    pure ⟨vertices, [], triangles⟩
  else pure TriangleMesh.new

/-- `<BSplineSurface<Point3> as Surface>::trim` (`src/surface/bspline.rs:202-277`). -/
def BSplineSurface.trim (s : BSplineSurface F (V3 F)) (o : TrimOracle F) (bounds : List (EdgeLoop F)) :
    Res (TriangleMesh F) := do
  let (vertices, polygons) ← collectLoops o bounds
  (if o.boundWritable then pure () else .error .unwrap : Res Unit)
  let points ← s.projectPoints vertices
  frontTrim o vertices points polygons (fun p => s.getPoint p.x p.y) (fun p => s.getPoint p.x p.y)

/-! ### Planes -/

/-- `Plane` (`src/surface/plane.rs:6-11`). -/
structure Plane (F : Type) where
  origin : V3 F
  normal : V3 F
  uAxis : V3 F
  vAxis : V3 F

/-- `Plane::project` (`src/surface/plane.rs:14-17`). -/
def Plane.project (p : Plane F) (point : V3 F) : V2 F :=
  let vector := point - p.origin
  ⟨vector.dot p.uAxis, vector.dot p.vAxis⟩

/-- `<Plane as Surface>::get_point` (`src/surface/plane.rs:21-23`). -/
def Plane.getPoint (p : Plane F) (u v : F) : V3 F := p.origin + p.uAxis * u + p.vAxis * v

/-- `iter().sum::<Point3>()`. -/
def sumV3 (l : List (V3 F)) : V3 F := l.foldl (· + ·) 0

/-- The fan around the centroid (`src/surface/plane.rs:54-67`). -/
def fanTriangles (n : Nat) : Res (List Nat) := do
  let n1 ← usub n 1
  let triangles ← forRange 0 n1 ([] : List Nat) fun ts i => pure (ts ++ [n, i, i + 1])
  pure (triangles ++ [n, n1, 0])

/-- `<Plane as Surface>::trim` (`src/surface/plane.rs:25-91`). -/
def Plane.trim (p : Plane F) (o : TrimOracle F) (bounds : List (EdgeLoop F)) : Res (TriangleMesh F) := do
  let (vertices, polygons) ← collectLoops o bounds
  let points := vertices.map p.project
  if polygons.length = 2 then do
    let (vertexIndices, concave) ← computeVertexConvexity points
    if vertexIndices.length = concave.length then pure TriangleMesh.new
    else if concave = [] then do
      let n := vertices.length
      let center := sumV3 vertices / (Nat.cast n : F)
      let triangles ← fanTriangles n
      pure ⟨vertices ++ [center], [], triangles⟩
    else do
      let triangles ← triangulatePolygon o.bs o.earFuel points vertexIndices concave
      pure ⟨vertices, [], triangles⟩
  else if 2 < polygons.length then do
    let vertexIndices ← mergePolygons points polygons
    let (concave, vertexIndices) ← findConcaveVertices points vertexIndices
    let triangles ← triangulatePolygon o.bs o.earFuel points vertexIndices concave
    pure ⟨vertices, [], triangles⟩
  else pure TriangleMesh.new

/-! ### Cylinders -/

/-- `Cylinder` (`src/surface/cylinder.rs:6-12`). -/
structure Cylinder (F : Type) where
  origin : V3 F
  axis : V3 F
  refDir : V3 F
  radius : F

section
variable [Trig F]

/-- `Cylinder::project` (`src/surface/cylinder.rs:15-27`). -/
def Cylinder.project (c : Cylinder F) (point : V3 F) : V2 F :=
  let vector := point - c.origin
  let length := vector.dot c.axis
  let x := vector.dot c.refDir
  let y := vector.dot (c.axis.cross c.refDir)
  let angle := Trig.atan2 y x
  ⟨length, if 0 ≤ angle then angle else angle + Trig.tau⟩

/-- `Cylinder::project_to_ring` (`src/surface/cylinder.rs:30-37`). -/
def Cylinder.projectToRing (c : Cylinder F) (point : V3 F) (d : F) : V2 F :=
  let vector := point - c.origin
  let z := vector.dot c.axis
  let ratio := d / (d - z)
  ⟨vector.dot c.refDir * ratio, vector.dot (c.axis.cross c.refDir) * ratio⟩

/-- `Cylinder::generate_point_from_ring` (`src/surface/cylinder.rs:39-45`). -/
def Cylinder.generatePointFromRing (c : Cylinder F) (point : V2 F) (d : F) : V3 F :=
  let ratio := c.radius / point.length
  let x := c.refDir * (point.x * ratio)
  let y := c.axis.cross c.refDir * (point.y * ratio)
  let z := c.axis * (d * (1 - ratio))
  c.origin + x + y + z

/-- `<Cylinder as Surface>::get_point` (`src/surface/cylinder.rs:49-52`). -/
def Cylinder.getPoint (c : Cylinder F) (length angle : F) : V3 F :=
  c.origin + c.axis * length + (Quat.fromAxisAngle c.axis angle).mulVec c.refDir * c.radius

/-- The ring distance used by `trim` (`src/surface/cylinder.rs:70-72`). -/
def Cylinder.ringDistance (c : Cylinder F) (vertices : List (V3 F)) : F :=
  let mm := getMinMaxByKey (vertices.map c.project) fun p => p.x
  (mm.2 - mm.1) * (Nat.cast 2 : F)

/-- `<Cylinder as Surface>::trim` (`src/surface/cylinder.rs:54-127`). -/
def Cylinder.trim (c : Cylinder F) (o : TrimOracle F) (bounds : List (EdgeLoop F)) : Res (TriangleMesh F) := do
  let (vertices, polygons) ← collectLoops o bounds
  let d := c.ringDistance vertices
  let points := vertices.map fun v => c.projectToRing v d
  frontTrim o vertices points polygons (fun p => pure (c.generatePointFromRing p d))
    (fun p => pure (c.getPoint p.x p.y))

/-! ### Spin, sweep and umbrella surfaces -/

/-- `SpinSurface` (`src/surface/spin.rs:6-13`). -/
structure SpinSurface (F : Type) where
  origin : V3 F
  axis : V3 F
  section_ : CurveObj F

/-- `<SpinSurface as Surface>::get_point` (`src/surface/spin.rs:16-22`). -/
def SpinSurface.getPoint (s : SpinSurface F) (param angle : F) : Res (V3 F) := do
  let vector := (← s.section_.getPoint param) - s.origin
  let parallel := s.axis * vector.dot s.axis
  let perpendicular := vector - parallel
  pure (s.origin + parallel + (Quat.fromAxisAngle s.axis angle).mulVec perpendicular)

/-- `SweepSurface` (`src/surface/sweep.rs:6-9`). -/
structure SweepSurface (F : Type) where
  path : CurveObj F
  section_ : CurveObj F

/-- `<SweepSurface as Surface>::get_point` (`src/surface/sweep.rs:12-14`). -/
def SweepSurface.getPoint (w : SweepSurface F) (p s : F) : Res (V3 F) := do
  let a ← w.path.getPoint p
  let b ← w.section_.getPoint s
  pure (a + b)

/-- `Umbrella` (`src/surface/umbrella.rs:6-8`). -/
structure Umbrella (F : Type) where
  radius : F

/-- `<Umbrella as Surface>::get_point` (`src/surface/umbrella.rs:15-24`). -/
def Umbrella.getPoint (m : Umbrella F) (theta phi : F) : V3 F :=
  let r := m.radius / Trig.pi
  let sinT := Trig.sin theta
  let cosT := Trig.cos theta
  ⟨r * (theta - sinT) * Trig.cos phi, r * (theta - sinT) * Trig.sin phi, r * (1 + cosT)⟩

end

/-! ### The `Surface` implementations -/

/-- `impl Surface for Plane`. -/
def Plane.surface (p : Plane F) : Surface F where
  getPoint u v := pure (p.getPoint u v)
  trim := p.trim

/-- `impl Surface for Cylinder`. -/
def Cylinder.surface [Trig F] (c : Cylinder F) : Surface F where
  getPoint u v := pure (c.getPoint u v)
  trim := c.trim

/-- `impl Surface for BezierSurface<Point3>`. -/
def BezierSurface.surface (s : BezierSurface (V3 F)) : Surface F where
  getPoint := s.getPoint

/-- `impl Surface for BezierSurface<Point4>`. -/
def BezierSurface.surfaceRational (s : BezierSurface (V4 F)) : Surface F where
  getPoint := s.getPointRational

/-- `impl Surface for BSplineSurface<Point3>`. -/
def BSplineSurface.surface (s : BSplineSurface F (V3 F)) : Surface F where
  getPoint := s.getPoint
  getNormals := s.getNormals
  trim := s.trim

/-- `impl Surface for BSplineSurface<Point4>`. -/
def BSplineSurface.surfaceRational (s : BSplineSurface F (V4 F)) : Surface F where
  getPoint := s.getPointRational

/-- `impl Surface for SpinSurface`. -/
def SpinSurface.surface [Trig F] (s : SpinSurface F) : Surface F where
  getPoint := s.getPoint

/-- `impl Surface for SweepSurface`. -/
def SweepSurface.surface (s : SweepSurface F) : Surface F where
  getPoint := s.getPoint

/-- `impl Surface for Umbrella`. -/
def Umbrella.surface [Trig F] (s : Umbrella F) : Surface F where
  getPoint u v := pure (s.getPoint u v)

end

end Geom3d
