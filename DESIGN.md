# Formal model of geom3d in Lean 4 — design

## 1. What is modelled and how

One Lean model, written function by function after the Rust source, **generic in the number type**.
Every model definition takes a type `F` with bare operations (`Add Sub Mul Div Neg Zero One NatCast
LT LE` with decidable comparisons, no laws) plus a small class `Env F` (constants `TOLERANCE`,
`Float::MAX`, `Float::MIN`, `MIN_GRID_SIZE`..., the `ulps_eq!` comparison, `sqrt`).  The same
definition is then read in four ways:

* **law-free**: theorems that hold for every `F` and all operations.  They apply verbatim to IEEE
  binary64 (including NaN, infinities, rounding).  Used for index safety, lengths, termination,
  boundary (chain) conservation, file layout, exact end points.
* **order only**: theorems that need only that comparisons form a linear order.
* **exact**: theorems over an arbitrary linearly ordered field `K` (or `ℝ` when `sqrt`, `sin`,
  `atan2` or derivatives occur).  They say what the code computes if arithmetic were exact.
* **binary64**: `F := Float`.  Lean 4.33's `Float` is a kernel-level definition of IEEE binary64, so
  concrete f64 executions of the model are evaluated *by the kernel* (`decide +kernel`), used only
  for counterexamples (findings).  Universal claims about f64 (C91 onwards) are proved from that
  definition: `Spec/Float64.lean` gives every finite `Float` a real value `val` and defines rounding to
  nearest even `rnd` of a real; `Lemmas/F64Round`, `F64Pack`, `F64Ops` prove that `+ - * /`, `sqrt`,
  conversion of naturals and comparisons of finite floats are the correctly rounded (or exact) real
  operations as long as the exact result is at most the largest finite number; `F64Err` has the error
  calculus.

Panics are data: every function that can panic returns `Res α := Except Panic α`; slice indexing,
`usize` subtraction, `assert!`, `unwrap`, `unreachable!` are explicit (`idx`, `upd`, `usub`, ...).
Integer overflow is modelled as a panic (Rust debug profile).  `&mut self` methods return the new
value.  `for` loops are `foldlM` over ranges or structural recursion; unbounded loops
(`generate_triangular_mesh`, `parameter_division`) take fuel and return `none` when it runs out, and
theorems about them quantify over all fuel.  Randomness is an oracle argument, universally
quantified.

Layout: `Verif/Model/*` model, `Verif/Spec/*` independent specifications, `Verif/Lemmas/*` proofs,
`Verif/Props/*` the property theorems (one file per group) with a non-vacuity example beside each.

## 2. Trusted base

* For the binary64 theorems: that Rust's `f64` arithmetic is what Lean's kernel definition of `Float` says
  (IEEE 754 binary64, round to nearest even, no fused or extended-precision evaluation).
* Lean's kernel, and the axioms `propext`, `Classical.choice`, `Quot.sound` (the only ones any
  theorem depends on; `vcheck` audits this).
* The reading of the Rust source: nothing is extracted mechanically; each definition cites file and lines.
* External crates, modelled from their documented behaviour: `glam` (DVec2/3/4 component arithmetic,
  `DQuat::from_axis_angle` and quaternion–vector product), `grid` (`Grid::from_vec`, row major),
  `approx` (`abs_diff_eq`, `ulps_eq!`), `rand` (arbitrary values in the documented interval), the
  standard library (`Vec`, `VecDeque`, `slice::windows/chunks`, sort, `write!`).
* `f64` formatting and parsing (`{}`, `FromStr`) are parameters with the assumption "parse ∘ format = id
  and formatted numbers are non-empty and contain no separators".

Not modelled: the STEP file parser (`iso_10303`), the `svg` crate's serialiser, the operating system's
file system beyond "a sequence of bytes written in order", `Debug` output, allocation failure,
integer widths other than where a property is about them (`as u32`, `as u8`).

## 3. Properties and plan
* **C01** Bernstein values are the Bernstein polynomials — exact (any commutative ring); invariant on the literal double loop, closed form by induction with Pascal's rule.
* **C02** Bernstein weights form a convex partition of unity — corollary of C01 (binomial theorem).
* **C03** bspline_basis computes the Cox-de Boor basis functions — exact; spec = textbook Cox-de Boor recursion; invariant of the in-place loop: after pass k entries base..max hold N_{i,k}.
* **C04** B-spline weights: non-negative, partition of unity, local support — exact; induction on degree over the seeded Cox-de Boor functions.
* **C05** Evaluating beyond the knot range extrapolates the end pieces — high side proved; low side is FALSE of the code (span_index returns multiplicity(0) instead of multiplicity(0)-1): negation with witness.
* **C06** A B-spline on the Bezier knot vector is the Bezier curve — exact; C01 + C03 on the explicit knot vector.
* **C07** Knot vector constructors produce clamped sorted vectors — order/exact; list lemmas.
* **C08** Knot insertion into the knot vector is a stable sorted insertion — order only; insertion lemma + induction over the operation list.
* **C09** span_index finds the non-empty span containing the parameter — order only + resolution hypothesis on ulps_eq.
* **C10** normalize, shrink, spans and range describe the same knots — exact; list lemmas.
* **C11** Bezier curves interpolate their ends and stay in the convex hull — exact; C01/C02.
* **C12** BezierCurve::derivative is the derivative — reals; HasDerivAt.
* **C13** B-spline curves: end interpolation and local convex hull — exact; C03/C04.
* **C14** BSplineCurve::derivative is the derivative — reals; HasDerivAt of the seeded Cox-de Boor functions.
* **C15** Knot insertion does not change the curve — exact; Boehm identity by induction on degree, then sums.
* **C16** Knot insertion and clamp are panic free — FALSE of the code: add_knot panics when 1 <= index <= degree, hence clamp panics on every curve not clamped at its start; exact characterisation + partial theorem.
* **C17** split cuts the curve into two pieces that reproduce it — exact; iterated C15 plus locality of basis functions.
* **C18** to_piecewise_bezier reproduces the curve — exact; induction over the distinct interior knots using C17.
* **C19** Rational curves and surfaces divide by a positive weight — exact; positivity of the weight sum.
* **C20** Line::project gives the parameter of the nearest point — exact for unit direction (_partial); FALSE for non-unit directions: witness.
* **C21** Circle points lie on the circle and project is the inverse of get_point — reals; quaternion product reduced to Rodrigues' formula.
* **C22** Circle::refine_parameter_range gives a sweep in the requested sense — reals; FALSE for equal ends (full circle collapses): witness + partial.
* **C23** Polyline::get_point is the arc-length parametrisation — reals; invariant of the segment walk.
* **C24** Polyline::get_point never panics on finite input — FALSE: binary64 witness evaluated by the kernel reaches unreachable!().
* **C25** Polyline::project gives the parameter of the nearest point — FALSE past a convex corner: witness; partial theorem when the foot lies on the chosen segment.
* **C26** Numerical projection returns a parameter inside the requested range — order/exact; induction over the trials.
* **C27** Degree-1 B-spline projection returns the nearest parameter — FALSE for unequal segments: witness.
* **C28** uniform_divide covers the range exactly — law-free end points, exact interior, order.
* **C29** parameter_division is an ordered subdivision with the exact end points — law-free end points; exact monotonicity; for all oracles.
* **C30** parameter_division terminates on continuous curves — reals/ordered field with metric bound; induction on fuel.
* **C31** Nearest-vertex searches return the first minimiser — order only; fold invariant.
* **C32** distance_to_line_segment is the distance to the closed segment — reals.
* **C33** Point-in-triangle tests are exact barycentric tests — exact.
* **C34** Segment intersection test is exact — exact (ordered field).
* **C35** clamp_in_range and get_min_max_by_key — order only.
* **C36** is_polygon_counter_clockwise decides the sign of the signed area — exact; telescoping sum.
* **C37** Convexity classification — law-free list characterisation.
* **C38** Ear clipping terminates with valid triangles — law-free; well-founded recursion.
* **C39** Ear clipping conserves signed area — exact; loop invariant.
* **C40** Merging holes conserves the boundary — law-free chain identity.
* **C41** Advancing front: valid indices and boundary vertices kept — law-free; fuel induction.
* **C42** Advancing front: the mesh has exactly the given boundary — law-free; antisymmetric edge functional invariant; area corollary exact.
* **C43** Grid triangulation is a consistently oriented manifold — law-free; arithmetic on indices.
* **C44** SurfacePatch meshes sample the surface on the parameter grid — law-free.
* **C45** NaN normal repair only touches NaN normals — law-free (isNaN abstract).
* **C46** Boxing a surface does not change its mesh — FALSE: Box<dyn Surface> does not forward get_normals: witness; partial for vertices/triangles.
* **C47** reverse_winding_direction flips every triangle and is an involution — law-free.
* **C48** OBJ export resolves to the original triangles — law-free; OBJ reader as specification.
* **C49** STL export is a well-formed binary STL — law-free bytes; STL reader as specification.
* **C50** A crash during STL export never announces triangles that are missing — law-free; prefix of writes.
* **C51** Point cloud files round-trip — law-free with parse/format assumption; with-normal files are FALSE: they load as empty.
* **C52** Plane projection is inverse to evaluation — exact.
* **C53** Trimming a plane yields a valid mesh that conserves area — law-free + exact area.
* **C54** Cylinder evaluation and projection — reals.
* **C55** Cylinder ring map is invertible on the trimmed face — exact/reals under 0<d, z<d (_partial); FALSE for faces away from the origin: witness.
* **C56** Spin surface is a rotation of its section — reals.
* **C57** Sweep and umbrella surfaces — exact/reals.
* **C58** Bezier surfaces: corners, hull and isoparametric curves — exact.
* **C59** B-spline surfaces: corners, hull and isoparametric curves — exact.
* **C60** BSplineSurface derivatives are the partial derivatives — reals.
* **C61** BSplineSurface constructors guarantee consistent knots — exact.
* **C62** Edge loops become polygons without consecutive duplicates — law-free.
* **C63** STEP edges start and end at their vertices — FALSE for non-unit directions and reversed oriented edges: witness; partial.
* **C64** SVG export draws the cubic pieces of the curve — law-free token level.
* **C65** Derivative of a B-spline curve on its valid domain — reals; the corrected C14 (one-sided where the knots allow no more).
* **C66** Exact panic condition of knot insertion and clamp — law-free; the corrected C16.
* **C67** Circle::refine_parameter_range computes the sweep modulo a full turn — reals; the corrected C22.
* **C68** Line::project for arbitrary directions — exact; the corrected C20: foot parameter times squared length.
* **C69** Ear clipping: complete area balance — exact; area before = area of triangles + area of what is left + dropped triangles.
* **C70** Ear clipping of polygons without concave vertices is complete — law-free.
* **C71** What boxing a surface changes — law-free; the corrected C46.
* **C72** Centroid fans of convex faces are not turned over — exact.
* **C73** Trimmed faces keep the direction of their boundary — law-free chain identity.
* **C74** Planar faces with corners and holes conserve area when every vertex is used — exact.
* **C75** Ear clipping conserves the boundary — law-free chain identity.
* **C76** Cylinder and B-spline meshes are valid — law-free.
* **C77** Direction of the boundary of cylinder and B-spline meshes — law-free chain identity.
* **C78** Trimmed faces on other surfaces are empty — law-free.
* **C79** Cylinder ring map: exact range of validity — exact/reals; the corrected C55.
* **C80** The result of save_as_stl does not cover the last flush — law-free model of `BufWriter`; witness of `Ok` with a truncated file.
* **C81** Files with normals and two dimensional files load as empty clouds — law-free; the corrected part of C51.
* **C82** Pieces of a clamped B-spline join — exact.
* **C83** SVG path of a cubic B-spline: exact exactly when its pieces join — law-free; the corrected C64.
* **C84** SVG path of any polycurve — law-free token level.
* **C85** STEP edges: exact end points — reals; the corrected C63.
* **C86** STEP reader: what is ignored, dropped or panics — law-free.
* **C87** STEP planes — exact.
* **C88** STEP rational surfaces are the NURBS of the file — exact.
* **C89** STEP closed circular edges collapse — reals.
* **C90** STEP faces without a mesh — law-free.
* **C91** Bernstein weights in binary64 — all f64 inputs; relative error propagated through the triangle.
* **C92** Bezier curves in binary64 — all f64 inputs; C91 and the error of the weighted sum.
* **C93** Range and search utilities in binary64 — all f64 inputs; comparisons embedded in the extended reals (`F64Order`).
* **C94** Knot vectors in binary64 — all f64 inputs; monotone rounding.
* **C95** Subdivision of parameter ranges in binary64 — all f64 ranges and curves; midpoints stay inside.
* **C96** Normals of B-spline surfaces — every valid surface; partial derivatives and a coordinate cross product.
* **C97** Vertices added by the advancing front — every terminating run; loop invariant.
* **C98** Subdivision does not end at a jump — every depth and draw; an invariant range around the jump.
* **C99** B-spline weights in binary64 — every parameter of the domain; the loops unrolled to a table, errors summed over each row.
* **C100** B-spline curves in binary64 — every parameter; weights (C99) and the accumulation loop, counting only the non-zero weights.
* **C101** Mixed derivatives of B-spline surfaces agree — exact.
* **C102** Projection onto B-spline surfaces — exact (ℝ), any number of points; binary64 witness for the panic at a pole.
* **C103** STEP reader: supported files are read as what they say — law-free; relations between entities and objects.
* **C104** bound.obj draws the closed polygon — law-free.
* **C105** Patch files are loaded patch by patch — law-free.
* **C106** Rounding error of Bézier and B-spline surfaces — binary64.
* **C107** Rounding error of rational curves and surfaces — binary64.
* **C108** B-spline curves across their knots — exact reals.
* **C109** Adaptive subdivision ends on every kind of curve — exact reals.
* **C110** Linear and affine maps of the control points — law-free (linear), exact (affine).
* **C111** Rigid motions of the whole input move the output — ℝ.
* **C112** No plane is crossed more often by a curve than by its control polygon — exact.
* **C113** Planar predicates in binary64 are right beyond an explicit margin — binary64; forward error bounds; witnesses inside the margin.
* **C114** Patches with a common edge have no cracks in binary64 — binary64; sums with vanishing terms up to the sign of zeros; witness for B-splines.
* **C115** The example programs write the triangles of the patches in the file they read — law-free (Bézier), exact (Bézier points), ℝ (B-spline).
* **C116** Reversed control data give the reversed curve, transposed nets the transposed surface — exact; ℝ (derivatives, normals); law-free (meshes).
* **C117** Sampled curves are not longer than their control polygons — exact; ℝ (lengths of polylines).
* **C118** Sampling returns finite points only, and never returns on a polyline without length — binary64.
* **C119** Ear clipping is complete on simple polygons in general position: n − 2 triangles, no gaps, no overlaps — exact.
* **C120** Ear clipping in binary64 is complete on polygons clear of tolerance and rounding error — binary64.
* **C121** A planar face with one simple loop is tiled by its mesh — exact; binary64 with the margin of C120; witness for clockwise loops.
* **C122** The advancing front covers each point, with sign, as often as the loops wind around it; conforming meshes have no overlaps — exact.
* **C123** Planar meshes, with holes, cover each point with sign as often as the loops wind around it — exact; witnesses of lost and overlapping meshes.
* **C124** The advancing front selects the best candidate, prefers inner nodes, and settles on free triangles — law-free, order-only, exact.
* **C125** Trimmed cylinders and B-spline surfaces are covered in their parameter planes as often as their loops wind — exact.
* **C126** Meshes cover what their boundaries enclose seen from any side, whatever the rounding — law-free, binary64.
* **C127** Knot insertion, clamping, splitting and Bézier conversion keep the curve up to a few roundings — binary64.
* **C128** Where sampling honours its tolerance, and cracks between faces with a common edge — exact reals; witnesses.
* **C129** Derivatives of B-spline and Bézier curves and of B-spline surfaces, computed and evaluated with rounding — binary64.
* **C130** Unit normals of B-spline surfaces, computed from rounded derivatives — binary64.
* **C131** The pairs of numbers that `ulps_eq!` accepts, and multiplicities counted with it — binary64.
* **C132** OBJ files as bytes through a `LineWriter`: `Ok` means complete, and the text reads back — law-free.
* **C133** Point cloud files written with `File::write`: what short writes leave behind — law-free.
* **C134** Where trimmed cylinders put new vertices: right for one loop, wrong for several — ℝ.
* **C135** The advancing front keeps off its own nodes, so C122 needs a condition on the input loops only — exact.
* **C136** Face bounds of one closed edge vanish: round holes are filled and discs are empty — law-free; ℝ; binary64.
* **C137** Cylinder sides written with a seam make the advancing front run for ever — law-free; exact; ℝ (files); binary64.
* **C138** Planar faces of straight edges, each used in its direction, go from STEP to OBJ as triangles that tile them — ℝ (files).
* **C139** Triangular faces using edges against their direction get five overlapping triangles or none; no closed solid of triangles survives — law-free; exact; binary64; ℝ (files).
* **C140** Edges between the ends of B-splines and polylines keep the whole curve, in either direction — law-free core; ℝ.
* **C141** Convex faces are covered by counter-clockwise triangles if and only if no edge is used against its direction; no closed solid of convex faces survives — ℝ (files).
* **C142** Faces with a reflex corner are tiled as long as no two edges in a row are used against their direction; solids of such faces must alternate — ℝ (files).
* **C143** C138 in binary64: files with directions that are only nearly unit vectors and vertices only nearly on their lines are converted to triangles that tile the faces, up to a bounded drift of the vertices — `Float`.
* **C144** The collocation matrices of `bspline_basis` are totally positive, so curves turn and wind as their control polygons do (B-spline, Bézier, rational) — `Field K`.
* **C145** Polylines inscribed in a rational curve with positive weights are no longer than the polygon of the projected control points, in any norm (the rational counterpart of C117) — `Field K`.
* **C146** `add_knot`, `split` and `to_piecewise_bezier` cut corners of the control polygon: it gets no longer and keeps its turning sense — `Field K`.
* **C147** Planar faces whose edges lie in convex polygons (control points, tangents of arcs) are sampled convexly and become fans that tile them — `ℝ`.
* **C148** Edges within the sampling tolerance (absolute, 0.01 for STEP) of their chord become the chord; faces bounded by two such edges are empty, holes filled — `ℝ` and ordered fields.
* **C149** Vertices on the sides of a simple planar face are skipped and the face is tiled (C121 without them), unless the corner between two of them is below the tolerance — `Field K`.
* **C150** The mesh of a Bézier patch is within (m(m−1)A g² + 2mnB gh + n(n−1)C h²)/8 of the patch, both ways (second differences A, B, C; cells g × h); attained — `ℝ`.
* **C151** The same for the mesh computed in binary64, up to K(2⁻⁴⁸M + 2⁻¹⁰⁷²) for K control points — `Float`.
* **C152** The number of sample points: (N−1)² ≤ max(1, D W²/(2 tol)) for curves that bow out by at most D w²/8, for Bézier curves, smooth clamped B-spline curves and circles; for arcs also at least 12 r W²/(25 π² tol) — exact.
* **C153** Bézier curve and control polygon: at corresponding parameters within A(nu(1−u) − r(1−r))/2 ≤ nA/8, attained by parabolas — exact; also with the rounding error of C92 in `Float`.
* **C154** Meshes of planes, cylinders, sweeps, spins, umbrellas: within (D g² + 2C gh + E h²)/8 of the surface in both directions, D, C, E from the surface — exact, real trigonometry.
* **C155** Meshes of clamped B-spline surfaces: within (D g² + 2C gh + E h²)/8 of the surface in both directions, D, C, E from the control points of the second derivatives — exact.
* **C156** Control points are determined by the curve or surface: agreement on the domain (B-spline), at n + 1 parameters (Bézier); knots inserted in any order give the same curve — exact.
* **C157** Projection onto Bézier curves: finds the nearest point under bounds on the control points of the derivatives (error squared per trial); without them may return the furthest point, or miss points of the curve itself — exact, one case in binary64.
* **C158** (Props/Converge.lean): `add_knot` commutes with `derivative`; refined control polygons are within `((p+1) h)² D` of the curve.
* **C159** Projection onto surfaces: exact on plane patches (foot of the perpendicular, parameters clamped one by one), error squared per trial near a foot point of any patch, and inverse to evaluation on bilinear patches of little twist; beyond an oblique corner of a plane patch the result need not be nearest.
* **C160** The area of the triangle mesh converges to the area of the surface: error at most Δu Δv 2 L M (Δu/a + Δv/b) for tangents bounded by L with Lipschitz constant M; exact on planes and cylinders; L and M from the control points for Bézier patches (`Props/MeshArea.lean`).
* **C161** The triangles of the mesh turn the way su × sv points, within the angle of sine 2 L M (Δu/a + Δv/b)/κ where |su × sv| ≥ κ, and agree with the normals stored at their corners; the derivative surfaces of clamped B-spline surfaces of degrees ≥ 2 are such tangents (`Props/FacetNormals.lean`, `Props/SplineTangents.lean`; the latter also adds B-spline surfaces to C160).
* **C162** Meshes close up where sides of patches coincide or collapse: full turns of cylinders and spin surfaces, sets of Bézier patches with matching sides; closed meshes have a volume independent of the viewpoint; in binary64 a full turn leaves a gap (`Props/Watertight.lean`).
* **C163** The volume of meshes converges to the flux integral of the surface, with an explicit bound (`Props/MeshVolume.lean`).
* **C164** Area and volume of the meshes of turned surfaces: the rules of Pappus and Guldin, tori and spheres, and which sense of the section turns a sphere inside out (`Props/TurnedSurfaces.lean`).
* **C165** Area and volume of the meshes of sweeps, exact for prisms, and of the umbrella, a turned cycloid (`Props/SweptSurfaces.lean`).
* **C166** Bézier patches with matching sides enclose a volume that does not depend on the apex of the cones, and the volume of their meshes tends to it at the rate 16 k³ Q³ / n per patch (`Props/PatchSolids.lean`).
* **C167** Area and volume of meshes of Bézier patches computed in binary64: the errors of C160 and C163, and the roundings of the vertices (`Props/FloatMeasure.lean`).
* **C168** Solids bounded by patches of surfaces of any kind whose sides match: meshes close up and their volume converges; a can of a cylinder and two discs is an instance (`Props/AnySolids.lean`).
* **C169** Meshes of Bézier patches whose sides match along the same parameter are exactly watertight in binary64; sides in opposite directions and collapsed sides may crack (`Props/FloatClosed.lean`).
* **C170** Clamped B-spline surfaces whose sides match as B-spline curves, in either direction: watertight meshes, and a volume that converges; a pillow of two quadratic surfaces is an instance (`Props/SplineSolids.lean`).
* **C171** Meshes of rational Bézier patches whose homogeneous sides match along the same parameter are finite and exactly watertight in binary64; sides with proportional weights may crack (`Props/RationalClosed.lean`).
* **C172** Rational Bézier patches whose homogeneous sides match, in either direction, or collapse to points bound solids: over the reals the meshes are watertight and their area and volume approach those of the patches with explicit bounds (`Props/RationalSolids.lean`).
* **C173** Over the reals it is enough for the homogeneous sides of rational patches to match up to a factor for every pair (`Props/ProportionalSides.lean`).
* **C174** Rational B-spline surfaces are quotients of two B-spline surfaces; over the reals those whose sides match bound solids, and the areas and volumes of their meshes approach those of the surfaces (`Props/NurbsSolids.lean`).
* **C175** The area and the volume of meshes computed in binary64 are near those of the exact patch whenever the points are, for patches of any kind; rational Bézier patches are an instance (`Props/RationalMeasure.lean`).
* **C176** The area and the volume of meshes of rational B-spline surfaces computed in binary64 are near those of the exact surfaces (`Props/NurbsMeasure.lean`).

## 4. Model files

| file | source |
|---|---|
| `Model/Base`, `Model/Point2`, `Model/Utils` | `src/lib.rs`, `src/utils.rs`, `src/utils/point.rs`, the parts of `glam`, `grid`, `approx` used |
| `Model/Knot`, `Model/Curve` | `src/knot.rs`, `src/basis.rs`, `src/curve.rs`, `src/curve/*.rs` |
| `Model/Mesh` | `src/mesh.rs`, OBJ part of `src/model.rs` |
| `Model/Polygon`, `Model/Meshgen`, `Model/Pick` | `src/utils/polygon.rs` (ear clipping, hole merging), `src/utils/meshgen.rs` (advancing front; selection of a node) |
| `Model/Surface` | `src/surface.rs`, `src/surface/*.rs`, `src/face.rs` |
| `Model/Export` | `Model::save_as_stl` as a trace of writer calls; `BufWriter` over a device that may accept fewer bytes |
| `Model/Text` | OBJ text; `LineWriter` and plain `File::write` over a device that may accept fewer bytes |
| `Model/Points` | `src/points.rs` as texts |
| `Model/Svg` | `Model::save_as_svg`, the `d` attribute of each path |
| `Model/Step` | `src/model/step_reader.rs` over an abstract parsed file |
| `Model/Files` | `save_bound_as_obj` of `src/surface/bspline.rs`; `load_teapot` of `examples/bezier.rs` and `examples/bspline.rs` as lists of tokens; `Grid::transpose` |
| `Model/Examples` | the `main` functions of `examples/bezier.rs`, `examples/bspline.rs`, `examples/convert_stp.rs` |

## 5. Tests against wrong programs

`seeded/LOG.jsonl` records one attempt per line: a model definition edited like a realistic bug, rebuilt in a scratch
copy; which claim the edit breaks, which theorems (or the lemmas under them) stopped compiling, and which theorems had
to be tightened.
