{"id": "C01", "title": "Bernstein values are the Bernstein polynomials", "statement": "For a Bezier curve or surface with n control points in a direction (n >= 1) the i-th blending weight used by get_point at u is exactly binomial(n-1,i) * u^i * (1-u)^(n-1-i) in exact arithmetic; with zero control points evaluation panics instead of returning a value.", "quantifier": "every n, every i < n, every parameter u (inside or outside [0,1]), over every field", "why_tests_cant": "a test fixes n and u; the claim is for all degrees and parameters", "anchors": ["src/basis.rs:bernstein"]}
{"id": "C02", "title": "Bernstein weights form a convex partition of unity", "statement": "The weights used by Bezier evaluation sum to 1 for every u, are all non-negative for u in [0,1], at u=0 only the first and at u=1 only the last is non-zero.", "quantifier": "every number of control points n >= 1 and every u", "why_tests_cant": "infinite family of degrees and parameters", "anchors": ["src/basis.rs:bernstein"]}
{"id": "C03", "title": "bspline_basis computes the Cox-de Boor basis functions", "statement": "For every non-decreasing knot vector that is not constant, every degree with at least degree+2 knots and every u in the knot range, bspline_basis does not panic, returns len-1-degree values, and the i-th value is the textbook Cox-de Boor function N_{i,degree}(u) (half-open spans, last non-empty span closed on the right).", "quantifier": "every sorted knot vector (any multiplicities) whose distinct knots are distinguishable, every degree, every u in [first,last]", "why_tests_cant": "the in-place triangular update has boundary cases in knots x degree x span that no finite sample covers", "anchors": ["src/knot.rs:KnotVector::bspline_basis", "src/knot.rs:KnotVector::span_index", "src/utils.rs:inv_or_zero"]}
{"id": "C04", "title": "B-spline weights: non-negative, partition of unity, local support", "statement": "On the valid parameter domain [t_p, t_{n-p}] the values of bspline_basis are non-negative and sum to 1; on the whole knot range they are non-negative and sum to at most 1; only the degree+1 weights of the span containing u can be non-zero.", "quantifier": "every sorted knot vector, degree and u in range", "why_tests_cant": "universally quantified over knot vectors", "anchors": ["src/knot.rs:KnotVector::bspline_basis"]}
{"id": "C05", "title": "Evaluating beyond the knot range extrapolates the end pieces", "statement": "For u above the last knot bspline_basis evaluates the polynomial pieces of the last non-empty span, and for u below the first knot it evaluates those of the first non-empty span.", "quantifier": "every sorted knot vector, degree, u outside the range", "why_tests_cant": "needs all knot vectors; the low side and the high side go through different code", "anchors": ["src/knot.rs:KnotVector::span_index", "src/knot.rs:KnotVector::bspline_basis"]}
{"id": "C06", "title": "A B-spline on the Bezier knot vector is the Bezier curve", "statement": "bspline_basis of bezier_knot(p) with degree p at u >= 0 equals the Bernstein weights of degree p at u, so a B-spline curve on that knot vector and a Bezier curve with the same control points agree at every u >= 0.", "quantifier": "every degree p and every u >= 0", "why_tests_cant": "relates two independent algorithms for every degree", "anchors": ["src/knot.rs:KnotVector::bezier_knot", "src/knot.rs:KnotVector::bspline_basis", "src/basis.rs:bernstein"]}
{"id": "C07", "title": "Knot vector constructors produce clamped sorted vectors", "statement": "bezier_knot(p) is p+1 zeros followed by p+1 ones. uniform_knot(p,d) for d >= 1 has length 2p+1+d, is non-decreasing, starts with p+1 zeros, ends with p+1 ones and has interior knots i/d. from_values_and_multiplicities repeats each value its multiplicity many times in order, has length the sum of the multiplicities, and is sorted when the values are. KnotVector::new keeps the given knots and panics below two.", "quantifier": "every degree, division, value list and multiplicity list of equal length", "why_tests_cant": "all sizes", "anchors": ["src/knot.rs:KnotVector::bezier_knot", "src/knot.rs:KnotVector::uniform_knot", "src/knot.rs:KnotVector::from_values_and_multiplicities"]}
{"id": "C08", "title": "Knot insertion into the knot vector is a stable sorted insertion", "statement": "KnotVector::add_knot on a sorted knot vector returns an index at which the new vector holds the new knot, removing that index gives back the old vector, the vector stays sorted, and every knot after the index is strictly greater. Any sequence of insertions yields the sorted multiset union.", "quantifier": "every sorted knot vector, every knot, every sequence of insertions", "why_tests_cant": "histories of insertions", "anchors": ["src/knot.rs:KnotVector::add_knot"]}
{"id": "C09", "title": "span_index finds the non-empty span containing the parameter", "statement": "For a sorted, non-constant knot vector and u in [first,last], span_index returns s with t_s < t_{s+1} and t_s <= u and (u < t_{s+1}, or u = last = t_{s+1}); for u > last it returns the last non-empty span. On a constant knot vector with u >= last it panics (usize underflow).", "quantifier": "every sorted knot vector and u", "why_tests_cant": "multiplicities at the ends decide the result", "anchors": ["src/knot.rs:KnotVector::span_index", "src/knot.rs:KnotVector::multiplicity"]}
{"id": "C10", "title": "normalize, shrink, spans and range describe the same knots", "statement": "normalize maps knots affinely so that the first becomes 0 and the last 1, keeps length and order, and is idempotent (non-constant vectors); shrink drops exactly the first and last knot and panics below two knots; spans(d) has len-d entries equal to t_{i+d}-t_i; range is (min,max) of a sorted vector.", "quantifier": "every knot vector (length >= 1 or 2 as applicable)", "why_tests_cant": "all lengths", "anchors": ["src/knot.rs:KnotVector::normalize", "src/knot.rs:KnotVector::shrink", "src/knot.rs:KnotVector::spans", "src/knot.rs:KnotVector::range"]}
{"id": "C11", "title": "Bezier curves interpolate their ends and stay in the convex hull", "statement": "A Bezier curve starts at its first and ends at its last control point; for u in [0,1] every point is a convex combination of the control points (so each coordinate stays between the smallest and largest control coordinate); evaluation commutes with translations and linear maps.", "quantifier": "every non-empty control polygon and every u (in [0,1] for the hull)", "why_tests_cant": "any number of control points", "anchors": ["src/curve/bezier.rs:BezierCurve::get_point"]}
{"id": "C12", "title": "BezierCurve::derivative is the derivative", "statement": "For a Bezier curve with at least two control points, the curve returned by derivative() evaluates at every u to the true derivative of get_point at u.", "quantifier": "every control polygon with >= 2 points and every real u", "why_tests_cant": "a limit statement over the reals", "anchors": ["src/curve/bezier.rs:BezierCurve::derivative", "src/curve/bezier.rs:BezierCurve::get_point"]}
{"id": "C13", "title": "B-spline curves: end interpolation and local convex hull", "statement": "A clamped B-spline curve starts at its first and ends at its last control point; for u in the valid domain the point is a convex combination of the degree+1 control points of its span.", "quantifier": "every valid clamped B-spline curve and parameter", "why_tests_cant": "all knot vectors and degrees", "anchors": ["src/curve/bspline.rs:BSplineCurve::get_point"]}
{"id": "C14", "title": "BSplineCurve::derivative is the derivative", "statement": "For a B-spline curve of degree p >= 1, derivative() yields a degree p-1 curve that at every u strictly inside a knot span equals the true derivative of get_point; for degree 0 it panics.", "quantifier": "every sorted knot vector, degree >= 1, control polygon, u interior to a span", "why_tests_cant": "a limit statement quantified over knot vectors", "anchors": ["src/curve/bspline.rs:BSplineCurve::derivative", "src/knot.rs:KnotVector::shrink", "src/knot.rs:KnotVector::spans"]}
{"id": "C15", "title": "Knot insertion does not change the curve", "statement": "BSplineCurve::add_knot keeps get_point(u) unchanged for every u in the range, adds exactly one knot and one control point, for every inserted knot for which it does not panic; hence any sequence of insertions leaves the curve unchanged.", "quantifier": "every sorted knot vector, degree, control polygon, inserted knot within the range, u in range", "why_tests_cant": "equality of functions under arbitrary insertion histories", "anchors": ["src/curve/bspline.rs:BSplineCurve::add_knot", "src/knot.rs:KnotVector::add_knot"]}
{"id": "C16", "title": "Knot insertion and clamp are panic free", "statement": "Inserting a knot anywhere within the knot range and clamping any valid B-spline curve completes without panicking.", "quantifier": "every valid B-spline curve and every knot in range", "why_tests_cant": "the panic only depends on position relative to degree", "anchors": ["src/curve/bspline.rs:BSplineCurve::add_knot", "src/curve/bspline.rs:BSplineCurve::clamp"]}
{"id": "C17", "title": "split cuts the curve into two pieces that reproduce it", "statement": "Splitting a B-spline curve at an interior parameter t yields two valid B-spline curves of the same degree; the left piece agrees with the original for u < t and the right piece for u >= t up to the end; both have consistent knot/control counts and the cut knot has full multiplicity in both.", "quantifier": "every clamped curve and interior t (snapping tolerance respected)", "why_tests_cant": "function equality for every curve and cut point", "anchors": ["src/curve/bspline.rs:BSplineCurve::split"]}
{"id": "C18", "title": "to_piecewise_bezier reproduces the curve", "statement": "For a clamped B-spline curve with m distinct knots, to_piecewise_bezier returns m-1 Bezier curves with degree+1 control points each, and the i-th one at (u-a)/(b-a) equals the B-spline at u for every u in its span [a,b).", "quantifier": "every clamped curve with interior multiplicities <= degree+1 and knots separated by more than the tolerance", "why_tests_cant": "composition of unboundedly many splits", "anchors": ["src/curve/bspline.rs:BSplineCurve::to_piecewise_bezier", "src/curve/bspline.rs:BSplineCurve::clamp", "src/curve/bspline.rs:BSplineCurve::split"]}
{"id": "C19", "title": "Rational curves and surfaces divide by a positive weight", "statement": "With positive weights, a rational Bezier/B-spline curve or surface point is a convex combination of the Euclidean control points for parameters in the valid domain (in particular the denominator is positive); with all weights equal it coincides with the polynomial curve of the same control points; scaling all homogeneous points by a non-zero factor changes nothing.", "quantifier": "every weighted control net with positive weights and parameter in the valid domain", "why_tests_cant": "all degrees and weights", "anchors": ["src/curve/bezier.rs:BezierCurve<Point4>", "src/curve/bspline.rs:BSplineCurve<Point4>", "src/surface/bezier.rs:BezierSurface<Point4>", "src/surface/bspline.rs:BSplineSurface<Point4>"]}
{"id": "C20", "title": "Line::project gives the parameter of the nearest point", "statement": "project returns the parameter of the point of the line nearest to the given point, and project(get_point(u)) = u.", "quantifier": "every line and point", "why_tests_cant": "the statement compares with all other points of the line; depends on the direction not being normalised", "anchors": ["src/curve/line.rs:Line"]}
{"id": "C21", "title": "Circle points lie on the circle and project is the inverse of get_point", "statement": "For unit axis and unit ref_dir perpendicular to it, get_point(a) is at distance radius from the center in the plane of the circle, is 2*pi periodic, project(get_point(a)) = a for a in [0,2*pi) (radius > 0), project always lands in [0,2*pi), get_point(project(p)) is a nearest circle point to p, and the circle runs counter-clockwise about the axis.", "quantifier": "every circle with orthonormal frame, every angle and point", "why_tests_cant": "real trigonometry over all angles", "anchors": ["src/curve/circle.rs:Circle"]}
{"id": "C22", "title": "Circle::refine_parameter_range gives a sweep in the requested sense", "statement": "For a parameter range with both ends in [0,2*pi), the refined range has the same end points on the circle and, if same_sense is true, sweeps forward by more than 0 and at most 2*pi, otherwise backward; in particular an edge whose start and end coincide (full circle) sweeps the whole circle.", "quantifier": "every pair of angles and sense flag", "why_tests_cant": "all pairs of angles incl. equal ones", "anchors": ["src/curve/circle.rs:Circle::refine_parameter_range"]}
{"id": "C23", "title": "Polyline::get_point is the arc-length parametrisation", "statement": "For a polyline of positive length and t in [0,1], get_point(t) is the point at arc length t*length from the start; t <= 0 gives the start, t >= 1 the end; it never hits the unreachable!() panic in exact arithmetic.", "quantifier": "every polyline with >= 2 vertices and positive length and every t", "why_tests_cant": "all vertex lists including repeated vertices", "anchors": ["src/curve/polyline.rs:Polyline::new", "src/curve/polyline.rs:Polyline::get_point"]}
{"id": "C24", "title": "Polyline::get_point never panics on finite input", "statement": "For every polyline with finite vertices and every t, get_point returns a point (in the f64 arithmetic the crate really uses).", "quantifier": "every finite polyline, every f64 t", "why_tests_cant": "depends on rounding of running sums", "anchors": ["src/curve/polyline.rs:Polyline::get_point"]}
{"id": "C25", "title": "Polyline::project gives the parameter of the nearest point", "statement": "get_point(project(p)) is a point of the polyline nearest to p.", "quantifier": "every polyline and point", "why_tests_cant": "compares with all points on the polyline", "anchors": ["src/curve/polyline.rs:Polyline::project"]}
{"id": "C26", "title": "Numerical projection returns a parameter inside the requested range", "statement": "find_nearest_parameter (used by Bezier and B-spline project) returns a parameter within the given range, which is either a sample parameter or a Newton iterate; it stops early only at a point within tolerance or where the orthogonality condition holds to tolerance; if no Newton step is taken the result is the nearest of the sampled parameters.", "quantifier": "every curve, derivative curves, point, range, division >= 1 and number of trials", "why_tests_cant": "iterates of an arbitrary function", "anchors": ["src/utils.rs:find_nearest_parameter", "src/utils.rs:clamp_in_range", "src/utils.rs:uniform_divide"]}
{"id": "C27", "title": "Degree-1 B-spline projection returns the nearest parameter", "statement": "For a degree 1 B-spline curve, get_point(project(p)) is nearest to p.", "quantifier": "every degree 1 B-spline curve and point", "why_tests_cant": "depends on knot spacing relative to segment lengths", "anchors": ["src/curve/bspline.rs:BSplineCurve::project"]}
{"id": "C28", "title": "uniform_divide covers the range exactly", "statement": "uniform_divide(range, d) for d >= 1 has d+1 entries, the first is exactly range.0 and the last exactly range.1 (in f64, no rounding), the i-th is range.0 + i*(range.1-range.0)/d in exact arithmetic, and it is strictly monotone when the ends differ; d = 0 panics.", "quantifier": "every range and division", "why_tests_cant": "all divisions", "anchors": ["src/utils.rs:uniform_divide"]}
{"id": "C29", "title": "parameter_division is an ordered subdivision with the exact end points", "statement": "Whenever parameter_division returns, the first parameter is exactly range.0 and the last exactly range.1, at least two parameters are returned, consecutive parameters are monotone in the direction of the range, and on every consecutive pair the curve passed the chord test for some ratio drawn by the random generator.", "quantifier": "every curve, range, tolerance, and every outcome of the random generator", "why_tests_cant": "quantifies over all random outcomes and recursion trees", "anchors": ["src/utils.rs:parameter_division", "src/utils.rs:range_at"]}
{"id": "C30", "title": "parameter_division terminates on continuous curves", "statement": "For a Lipschitz curve and positive tolerance parameter_division terminates for every outcome of the random generator with recursion depth bounded by log2(L*|range|/tol)+O(1); with tolerance <= 0 it never terminates.", "quantifier": "every Lipschitz curve, range, positive tolerance, all random outcomes", "why_tests_cant": "termination over all executions", "anchors": ["src/utils.rs:parameter_division"]}
{"id": "C31", "title": "Nearest-vertex searches return the first minimiser", "statement": "find_nearest_point returns an index of a point with minimal distance to the query, the smallest such index; find_nearest_point_in_grid likewise in row-major order; both return index 0 on data where nothing is closer than Float::MAX.", "quantifier": "every point list / grid and query", "why_tests_cant": "all lists", "anchors": ["src/utils.rs:find_nearest_point", "src/utils.rs:find_nearest_point_in_grid", "src/curve/polyline.rs:Polyline::nearest_vertex"]}
{"id": "C32", "title": "distance_to_line_segment is the distance to the closed segment", "statement": "distance_to_line_segment(a,b,p) (2D and 3D) is the minimum over all points q of the closed segment ab of |p-q|, including degenerate segments a=b.", "quantifier": "every a, b, p", "why_tests_cant": "minimum over a continuum", "anchors": ["src/utils.rs:distance_to_line_segment", "src/utils/point.rs:Point::distance_to_line_segment"]}
{"id": "C33", "title": "Point-in-triangle tests are exact barycentric tests", "statement": "For a counter-clockwise non-degenerate triangle the ear-clipping inside test is true exactly when the point is a convex combination of the corners; the public is_inside_triangle accepts all of these, and every accepted point has all three edge cross products at least -1e-7; for a clockwise triangle no strictly interior point is accepted by the exact test.", "quantifier": "all triangles and points", "why_tests_cant": "all configurations", "anchors": ["src/utils/polygon.rs:is_inside_triangle", "src/utils/point.rs:Point::is_inside_triangle"]}
{"id": "C34", "title": "Segment intersection test is exact", "statement": "The advancing front's segment test returns true exactly when the two closed segments share a point, including collinear, touching and degenerate segments (exact arithmetic).", "quantifier": "all four end points", "why_tests_cant": "all degenerate configurations", "anchors": ["src/utils/meshgen.rs:is_segments_intersect"]}
{"id": "C35", "title": "clamp_in_range and get_min_max_by_key", "statement": "clamp_in_range returns a value between the two range ends whatever their order, is the identity inside the range, is idempotent, and returns the nearest end outside; get_min_max_by_key returns the least and greatest key of a non-empty list of finite keys and (Float::MAX, Float::MIN) for an empty list.", "quantifier": "all values, ranges, lists", "why_tests_cant": "all inputs", "anchors": ["src/utils.rs:clamp_in_range", "src/utils.rs:get_min_max_by_key"]}
{"id": "C36", "title": "is_polygon_counter_clockwise decides the sign of the signed area", "statement": "The result is true exactly when the shoelace signed area is positive; it is invariant under rotating the starting vertex and under translation, and reversing the vertex order negates the signed area it decides on; it panics on an empty polygon.", "quantifier": "every polygon", "why_tests_cant": "all vertex counts", "anchors": ["src/utils/polygon.rs:is_polygon_counter_clockwise"]}
{"id": "C37", "title": "Convexity classification", "statement": "compute_vertex_convexity returns the indices of all vertices whose turn is not within tolerance of straight, in increasing order, and as second component the increasing sublist of those that turn right; find_concave_vertices keeps exactly the non-straight entries and returns the sorted concave ones.", "quantifier": "every polygon / vertex index list", "why_tests_cant": "all sizes", "anchors": ["src/utils/polygon.rs:compute_vertex_convexity", "src/utils/polygon.rs:find_concave_vertices", "src/utils/polygon.rs:compute_convexity"]}
{"id": "C38", "title": "Ear clipping terminates with valid triangles", "statement": "trianglate_polygon terminates for every input, returns a multiple of three indices, every index is one of the given vertex indices, there are at most n-2 triangles for n >= 3 vertices; inputs with fewer than 2 vertices panic.", "quantifier": "every point array, vertex index list and concave list, for any floating point behaviour including NaN", "why_tests_cant": "termination and index safety for all inputs", "anchors": ["src/utils/polygon.rs:trianglate_polygon", "src/utils/polygon.rs:is_ear"]}
{"id": "C39", "title": "Ear clipping conserves signed area", "statement": "The signed areas of the emitted triangles plus the signed area of the unclipped remainder (a sub-polygon of the input) equal the signed area of the polygon up to 1e-7/2 per dropped straight vertex; when n-2 triangles are returned the areas add up exactly to the polygon's area.", "quantifier": "every polygon (simple or not)", "why_tests_cant": "conservation along unboundedly many clipping steps", "anchors": ["src/utils/polygon.rs:trianglate_polygon"]}
{"id": "C40", "title": "Merging holes conserves the boundary", "statement": "merge_polygons of an outer polygon and holes yields one closed index loop in which every input vertex occurs, whose directed edges are those of all input loops plus pairs of opposite bridge edges; so signed area is preserved and its length is the number of points plus two per hole.", "quantifier": "every family of non-empty loops", "why_tests_cant": "any number of loops and vertices", "anchors": ["src/utils/polygon.rs:merge_polygons", "src/utils/polygon.rs:merge_two_polygons"]}
{"id": "C41", "title": "Advancing front: valid indices and boundary vertices kept", "statement": "Whenever generate_triangular_mesh returns, the input points are the unchanged prefix of the returned vertices, the index list length is a multiple of three, every index addresses a returned vertex, and every triangle adds at most one new vertex. In exact arithmetic a front edge that does not pass through the ends of the advanced edge offers a third, different corner.", "quantifier": "every point list and loop offsets, any floating point behaviour, every terminating run", "why_tests_cant": "unbounded loop", "anchors": ["src/utils/meshgen.rs:generate_triangular_mesh", "src/utils/meshgen.rs:find_intersection_with_front"]}
{"id": "C42", "title": "Advancing front: the mesh has exactly the given boundary", "statement": "Whenever generate_triangular_mesh returns, the oriented boundary of the triangle set (directed edges with opposite edges cancelling) equals the oriented edges of the input loops, so the mesh is watertight inside and its total signed area equals that of the loops.", "quantifier": "every point list and loops, any floating point behaviour, every terminating run", "why_tests_cant": "an invariant over unboundedly many front updates", "anchors": ["src/utils/meshgen.rs:generate_triangular_mesh"]}
{"id": "C43", "title": "Grid triangulation is a consistently oriented manifold", "statement": "create_triangles on an r x c grid (r,c >= 1) returns 6(r-1)(c-1) indices, all below r*c; no directed edge occurs twice; every edge interior to the grid occurs once in each direction and every edge on the rim once.", "quantifier": "every grid size", "why_tests_cant": "all sizes", "anchors": ["src/mesh.rs:create_triangles"]}
{"id": "C44", "title": "SurfacePatch meshes sample the surface on the parameter grid", "statement": "get_triangle_mesh of a patch with divisions (m,n) >= 1 has (m+1)(n+1) vertices, vertex i*(n+1)+j is surface.get_point(u_i, v_j) with the corners at the exact range ends, the same points as get_point_grid in row-major order, and 2mn triangles with valid indices.", "quantifier": "every surface, range and division", "why_tests_cant": "all divisions and surfaces", "anchors": ["src/face.rs:SurfacePatch::get_triangle_mesh", "src/surface.rs:SurfacePatch::get_point_grid"]}
{"id": "C45", "title": "NaN normal repair only touches NaN normals", "statement": "In get_triangle_mesh the normal list keeps its length, normals that were not NaN are unchanged, every replaced normal is a copy of a non-NaN normal from the list, and a normal stays NaN only if all its grid neighbours were NaN when it was visited.", "quantifier": "every normal list over every grid size", "why_tests_cant": "order dependent propagation on any grid", "anchors": ["src/face.rs:SurfacePatch::get_triangle_mesh"]}
{"id": "C46", "title": "Boxing a surface does not change its mesh", "statement": "A patch over Box<dyn Surface> produces the same vertices, triangles and normals as the patch over the surface itself.", "quantifier": "every surface", "why_tests_cant": "trait forwarding for every surface", "anchors": ["src/surface.rs:impl Surface for Box<dyn Surface>", "src/face.rs:SurfacePatch::get_triangle_mesh"]}
{"id": "C47", "title": "reverse_winding_direction flips every triangle and is an involution", "statement": "For an index list whose length is a multiple of three it keeps vertices, normals and the number of triangles, reverses each triangle, negates every directed edge, and applying it twice is the identity; otherwise it panics.", "quantifier": "every mesh", "why_tests_cant": "all sizes", "anchors": ["src/mesh.rs:TriangleMesh::reverse_winding_direction", "src/mesh.rs:TriangleMesh::triangle_count"]}
{"id": "C48", "title": "OBJ export resolves to the original triangles", "statement": "Reading the records written by Model::save_as_obj with the OBJ rules (1-based global vertex and normal numbering) yields, face by face and triangle by triangle, exactly the corner positions (and normals) of every face's mesh, for any number of faces.", "quantifier": "every list of meshes with valid indices (and as many normals as vertices or none)", "why_tests_cant": "offset arithmetic over arbitrary many faces", "anchors": ["src/model.rs:Model::save_as_obj", "src/mesh.rs:TriangleMesh::write_obj"]}
{"id": "C49", "title": "STL export is a well-formed binary STL", "statement": "save_as_stl writes an 80 byte header for every file name, a count field equal to the number of triangles, and 50 bytes per triangle holding zero normal, the three corner positions as f32 little endian and zero attribute; decoding the bytes by the STL layout returns all triangles of all faces in order; the header never starts with 'solid'.", "quantifier": "every model whose meshes have valid index lists (fewer than 2^32 triangles) and every file name", "why_tests_cant": "byte layout for every name length and mesh count", "anchors": ["src/model.rs:Model::save_as_stl"]}
{"id": "C50", "title": "A crash during STL export never announces triangles that are missing", "statement": "At every point of the sequence of writes, a file of at least 84 bytes whose count field is non-zero already contains all announced triangles.", "quantifier": "every crash point in the sequence of byte writes", "why_tests_cant": "all crash points", "anchors": ["src/model.rs:Model::save_as_stl"]}
{"id": "C51", "title": "Point cloud files round-trip", "statement": "load_point_cloud(save_point_cloud(ps)) = ps for every list of points; comment lines and lines with a column count other than 3 or 4 are skipped, and of 4 columns the first is ignored; files written by save_point_cloud_with_normal load back their positions; scale_points multiplies every coordinate.", "quantifier": "every list of points and every text", "why_tests_cant": "all lists; depends on separators and formatting", "anchors": ["src/points.rs:load_point_cloud", "src/points.rs:save_point_cloud", "src/points.rs:save_point_cloud_with_normal"]}
{"id": "C52", "title": "Plane projection is inverse to evaluation", "statement": "For orthonormal u_axis and v_axis, project(get_point(u,v)) = (u,v), get_point(project(p)) is the orthogonal projection of p (nearest point of the plane).", "quantifier": "every plane frame, parameters and point", "why_tests_cant": "all points", "anchors": ["src/surface/plane.rs:Plane"]}
{"id": "C53", "title": "Trimming a plane yields a valid mesh that conserves area", "statement": "Plane::trim returns a mesh whose indices are valid and come in triples; for a convex counter-clockwise loop it is a fan around the centroid with one triangle per boundary edge whose signed areas add up to the polygon's; a loop with only right turns gives an empty mesh.", "quantifier": "every list of boundary loops for which no panic occurs", "why_tests_cant": "all polygons", "anchors": ["src/surface/plane.rs:Plane::trim"]}
{"id": "C54", "title": "Cylinder evaluation and projection", "statement": "For a unit axis and perpendicular unit ref_dir, get_point(l,a) lies at distance radius from the axis at height l, project(get_point(l,a)) = (l,a) for a in [0,2*pi), get_point(project(p)) = p for p on the cylinder, and the angle turns counter-clockwise about the axis.", "quantifier": "every cylinder with orthonormal frame, radius > 0", "why_tests_cant": "real trigonometry", "anchors": ["src/surface/cylinder.rs:Cylinder::project", "src/surface/cylinder.rs:Cylinder::get_point"]}
{"id": "C55", "title": "Cylinder ring map is invertible on the trimmed face", "statement": "generate_point_from_ring(project_to_ring(p,d),d) = p for every point p of the cylinder, for the d that trim uses, so generated interior vertices are consistent with the boundary.", "quantifier": "every cylinder point and ring distance", "why_tests_cant": "depends on the height of the point relative to d", "anchors": ["src/surface/cylinder.rs:Cylinder::project_to_ring", "src/surface/cylinder.rs:Cylinder::generate_point_from_ring", "src/surface/cylinder.rs:Cylinder::trim"]}
{"id": "C56", "title": "Spin surface is a rotation of its section", "statement": "For a unit axis, at angle 0 the spin surface is its section curve, every point keeps its height along and distance from the axis for all angles, it is 2*pi periodic, and angles add.", "quantifier": "every section curve, axis, parameter and angle", "why_tests_cant": "all angles", "anchors": ["src/surface/spin.rs:SpinSurface"]}
{"id": "C57", "title": "Sweep and umbrella surfaces", "statement": "The sweep surface point is path point plus section point (so sections are translates of one another). The umbrella has its apex (0,0,2R/pi) at theta=0, its rim at theta=pi is the circle of the given radius in z=0, and is rotationally symmetric.", "quantifier": "every curve pair, radius and parameters", "why_tests_cant": "all parameters", "anchors": ["src/surface/sweep.rs:SweepSurface", "src/surface/umbrella.rs:Umbrella"]}
{"id": "C58", "title": "Bezier surfaces: corners, hull and isoparametric curves", "statement": "A Bezier surface interpolates its four corner control points, for (u,v) in the unit square each point is a convex combination of the net, and fixing u gives the Bezier curve (in v) of the points obtained by evaluating the net columns as Bezier curves at u. The constructor accepts exactly the nets with at least two rows and two columns and keeps them.", "quantifier": "every control net with at least one row and column", "why_tests_cant": "all net sizes", "anchors": ["src/surface/bezier.rs:BezierSurface"]}
{"id": "C59", "title": "B-spline surfaces: corners, hull and isoparametric curves", "statement": "A B-spline surface equals the B-spline curve in v of the column curves evaluated at u; clamped surfaces interpolate the corners; points in the valid domain are convex combinations of (p+1)(q+1) net points; constant nets give constant surfaces.", "quantifier": "every valid surface and parameters", "why_tests_cant": "all knots, degrees, nets", "anchors": ["src/surface/bspline.rs:BSplineSurface::get_point"]}
{"id": "C60", "title": "BSplineSurface derivatives are the partial derivatives", "statement": "derivative_u / derivative_v evaluate to the true partial derivatives of get_point for parameters strictly inside knot spans, and to zero when the degree in that direction is zero.", "quantifier": "every valid surface, parameter interior to its spans", "why_tests_cant": "limits over all surfaces", "anchors": ["src/surface/bspline.rs:BSplineSurface::derivative_u", "src/surface/bspline.rs:BSplineSurface::derivative_v"]}
{"id": "C61", "title": "BSplineSurface constructors guarantee consistent knots", "statement": "uniform_clamped yields knot vectors that satisfy the length equation asserted by new (rows+u_deg+1, cols+v_deg+1) for every net larger than the degrees, and evaluation over [0,1]x[0,1] never panics; degrees of 256 and above are silently truncated.", "quantifier": "every net size and degree pair", "why_tests_cant": "all sizes", "anchors": ["src/surface/bspline.rs:BSplineSurface::new", "src/surface/bspline.rs:BSplineSurface::uniform_clamped", "src/knot.rs:KnotVector::uniform_knot"]}
{"id": "C62", "title": "Edge loops become polygons without consecutive duplicates", "statement": "to_polygon of a loop with at least one sampled point keeps the order of the sampled points, never keeps two consecutive points within tolerance, keeps the first point unless everything collapses, drops the last point when it coincides with the first; it panics on a loop without points.", "quantifier": "every list of sampled points", "why_tests_cant": "all lists", "anchors": ["src/surface.rs:EdgeLoop::to_polygon"]}
{"id": "C63", "title": "STEP edges start and end at their vertices", "statement": "The curve segment read for an edge runs from the edge's start vertex to its end vertex for lines and circles whose vertices lie on the curve, for every direction vector or axis given in the file; edge loops are traversed according to the orientation flag of each oriented edge.", "quantifier": "every STEP line/circle edge", "why_tests_cant": "depends on un-normalised directions and flags in files", "anchors": ["src/model/step_reader.rs:extract_edge_curve", "src/model/step_reader.rs:extract_curve", "src/model/step_reader.rs:ModelReader::read_model"]}
{"id": "C64", "title": "SVG export draws the cubic pieces of the curve", "statement": "For a cubic clamped B-spline segment the emitted path consists of one move to the start of the first Bezier piece and one cubic per piece whose implicit start is the end of the previous piece; interpreting the path yields exactly the pieces of to_piecewise_bezier.", "quantifier": "every polycurve of cubic B-spline segments", "why_tests_cant": "any number of pieces", "anchors": ["src/model.rs:Model::save_as_svg"]}
{"id": "C65", "title": "Derivative of a B-spline curve on its valid domain", "statement": "For a B-spline curve of degree p >= 1, derivative() yields a degree p-1 curve with one control point and two knots less whose value, at every u strictly inside a non-empty span of the valid domain [t_p, t_N], is the true derivative of get_point; for clamped curves this is every u strictly between the first and last knot that is not a knot.", "quantifier": "every valid curve of degree >= 1 and every such u", "why_tests_cant": "limits over all real parameters", "anchors": ["src/curve/bspline.rs:BSplineCurve::derivative", "src/knot.rs:KnotVector::shrink", "src/knot.rs:KnotVector::spans"]}
{"id": "C66", "title": "Exact panic condition of knot insertion and clamp", "statement": "On a B-spline curve with consistent lengths add_knot panics if and only if the position at which the knot is inserted is between 1 and the degree; clamp succeeds on a valid curve of degree >= 1 if and only if the first knot already has multiplicity >= degree+1, and then the last knot has multiplicity >= degree+1 afterwards and get_point is unchanged.", "quantifier": "every curve, every knot value, any floating point behaviour (first part)", "why_tests_cant": "a statement about all inputs that panic and all that do not", "anchors": ["src/curve/bspline.rs:BSplineCurve::add_knot", "src/curve/bspline.rs:BSplineCurve::clamp"]}
{"id": "C67", "title": "Circle::refine_parameter_range computes the sweep modulo a full turn", "statement": "For both ends in [0,2*pi) the refined range ends at angles congruent to the given ones, and its sweep in the requested sense lies in [0,2*pi); it is 0 exactly when the two angles are equal, in which case the range is returned unchanged in either sense.", "quantifier": "every pair of angles in [0,2*pi) and sense flag; the last part for any floating point behaviour", "why_tests_cant": "a statement about all angle pairs", "anchors": ["src/curve/circle.rs:Circle::refine_parameter_range"]}
{"id": "C68", "title": "Line::project for arbitrary directions", "statement": "For any non-zero direction d the unique nearest parameter of p is project(p)/(d.d); project inverts get_point for all parameters if and only if d.d = 1.", "quantifier": "every line with non-zero direction and every point", "why_tests_cant": "an equivalence over all lines, parameters and points", "anchors": ["src/curve/line.rs:Line"]}
{"id": "C69", "title": "Ear clipping: complete area balance", "statement": "In exact arithmetic the polygon's signed area is that of the triangles plus that of the left-over sub-polygon plus the areas cut off when straight vertices are dropped; each drop is one vertex, or two neighbouring ones, each within 1e-7 of straight when dropped. If the vertices are distinct and tolerance-straightness is transitive on them, the error is at most the tolerance per vertex neither clipped nor left over; if n-2 triangles are returned and none of them is flat, areas agree exactly.", "quantifier": "every polygon (simple or not), every concave list, every binary search meeting its contract", "why_tests_cant": "an invariant along unboundedly many clipping steps", "anchors": ["src/utils/polygon.rs:trianglate_polygon"]}
{"id": "C70", "title": "Ear clipping of polygons without concave vertices is complete", "statement": "With an empty concave list ear clipping never panics on n >= 2 vertices and returns exactly n-2 triangles whose signed areas add up to that of the polygon; a polygon all of whose turns exceed the tolerance is classified that way by compute_vertex_convexity.", "quantifier": "every number of vertices; the count for any floating point behaviour", "why_tests_cant": "all sizes", "anchors": ["src/utils/polygon.rs:trianglate_polygon", "src/utils/polygon.rs:compute_vertex_convexity"]}
{"id": "C71", "title": "What boxing a surface changes", "statement": "The mesh of a patch over Box<dyn Surface> has the vertices and triangles of the patch over the surface itself and never any normals; the two meshes are equal exactly when the surface supplies no normals. Points, point grids and trimmed meshes are identical.", "quantifier": "every surface and patch, any floating point behaviour", "why_tests_cant": "a statement about every trait implementation", "anchors": ["src/surface.rs:impl Surface for Box<dyn Surface>", "src/face.rs:SurfacePatch::get_triangle_mesh"]}
{"id": "C72", "title": "Centroid fans of convex faces are not turned over", "statement": "For a planar loop whose projection is convex (every vertex on or left of every edge), every triangle of the centroid fan has non-negative signed area, and positive area when some vertex lies strictly left of its edge.", "quantifier": "every plane, every convex loop of any size", "why_tests_cant": "all polygons", "anchors": ["src/surface/plane.rs:Plane::trim"]}
{"id": "C73", "title": "Trimmed faces keep the direction of their boundary", "statement": "The oriented boundary of the mesh returned by trim, i.e. the edges not matched by their reverse, is the given loop traversed in the given direction.", "quantifier": "every trimmed plane, cylinder and B-spline face", "why_tests_cant": "a statement about all meshes", "anchors": ["src/surface/plane.rs:Plane::trim", "src/surface/cylinder.rs:Cylinder::trim", "src/surface/bspline.rs:BSplineSurface::trim"]}
{"id": "C74", "title": "Planar faces with corners and holes conserve area when every vertex is used", "statement": "If Plane::trim returns as many triangles as a triangulation that uses every vertex has (n-2 for a single loop, two more per hole) and none of them is flat, their signed areas add up to the signed areas of the boundary loops (holes counted with their own sign).", "quantifier": "every list of boundary loops, exact arithmetic", "why_tests_cant": "all polygons with any number of holes", "anchors": ["src/surface/plane.rs:Plane::trim", "src/utils/polygon.rs:merge_polygons", "src/utils/polygon.rs:trianglate_polygon"]}
{"id": "C75", "title": "Ear clipping conserves the boundary", "statement": "The boundary of the polygon (as a sum of directed edges, an edge and its reverse cancelling) is that of the triangles plus that of the left-over polygon plus that of slivers cut off at vertices the code found straight; if n-2 triangles are returned and none names a vertex twice, the triangles have exactly the boundary of the polygon.", "quantifier": "every polygon, any floating point behaviour, every antisymmetric edge weight", "why_tests_cant": "an invariant along unboundedly many steps", "anchors": ["src/utils/polygon.rs:trianglate_polygon"]}
{"id": "C76", "title": "Cylinder and B-spline meshes are valid", "statement": "Whenever trimming a cylinder or B-spline surface returns, the index list consists of triples of valid indices, no normals are produced, and the vertices are the boundary polygon points in order (reversed at most for a single loop) followed by points evaluated on the surface.", "quantifier": "every surface, list of loops and iteration order of the nearby-point map, any floating point behaviour", "why_tests_cant": "all inputs and all runs of the advancing front", "anchors": ["src/surface/cylinder.rs:Cylinder::trim", "src/surface/bspline.rs:BSplineSurface::trim"]}
{"id": "C77", "title": "Direction of the boundary of cylinder and B-spline meshes", "statement": "The oriented boundary of the mesh (sum of directed edges between positions) is the sum of the given loops for several loops, and the reversed loop for a single one, whatever its orientation. The same holds for the faces (trimmed surfaces, boxed or not) over such surfaces.", "quantifier": "every surface and list of loops on which trim returns, any floating point behaviour", "why_tests_cant": "all runs of the advancing front", "anchors": ["src/surface/cylinder.rs:Cylinder::trim", "src/surface/bspline.rs:BSplineSurface::trim"]}
{"id": "C78", "title": "Trimmed faces on other surfaces are empty", "statement": "A trimmed face on a Bezier, rational, spin, sweep or umbrella surface, boxed or not, has an empty mesh for every boundary.", "quantifier": "every such surface and boundary", "why_tests_cant": "all boundaries", "anchors": ["src/surface.rs:Surface::trim", "src/face.rs:TrimmedSurface"]}
{"id": "C79", "title": "Cylinder ring map: exact range of validity", "statement": "For a framed cylinder of positive radius and a point on it at height z, generate_point_from_ring(project_to_ring(p,d),d) = p exactly when d/(d-z) > 0; when it is negative the result is the antipodal point at height 2d-z. With the d chosen by trim, all boundary points are recovered exactly when the greatest boundary height exceeds both the least height and its double.", "quantifier": "every framed cylinder, point on it, ring distance and set of boundary heights", "why_tests_cant": "a continuum of cylinders and heights", "anchors": ["src/surface/cylinder.rs:Cylinder::project_to_ring", "src/surface/cylinder.rs:Cylinder::generate_point_from_ring", "src/surface/cylinder.rs:Cylinder::trim"]}
{"id": "C80", "title": "The result of save_as_stl does not cover the last flush", "statement": "The triangle count is written by the last buffer flush, which runs in the BufWriter destructor and whose errors are discarded: whenever the writes and the seek before it succeed, save_as_stl returns Ok for every outcome of that flush; the file is then one of the crash states of the write sequence, the complete file exactly when the flush is complete, and it can hold a zero count although Ok was returned.", "quantifier": "every model and every outcome of the device", "why_tests_cant": "device failures cannot be enumerated by tests", "anchors": ["src/model.rs:Model::save_as_stl"]}
{"id": "C81", "title": "Files with normals and two dimensional files load as empty clouds", "statement": "A file written by save_point_cloud_with_normal (six columns) or by save_points (two columns) is read by load_point_cloud without an error as the empty cloud, whatever the points.", "quantifier": "every list of points and normals, every text form of numbers without spaces or line breaks", "why_tests_cant": "all lists", "anchors": ["src/points.rs:load_point_cloud", "src/points.rs:save_point_cloud_with_normal", "src/points.rs:save_points"]}
{"id": "C82", "title": "Pieces of a clamped B-spline join", "statement": "The pieces returned by to_piecewise_bezier for a clamped curve join: where the multiplicity of an inner knot is at most the degree, the last control point of one piece is the first of the next and is the point of the curve at that knot. With multiplicity degree + 1 they need not.", "quantifier": "every valid clamped curve of any degree over every point type, exact arithmetic", "why_tests_cant": "all degrees and knot vectors", "anchors": ["src/curve/bspline.rs:BSplineCurve::to_piecewise_bezier"]}
{"id": "C83", "title": "SVG path of a cubic B-spline: exact exactly when its pieces join", "statement": "The path of a cubic B-spline segment has one cubic per piece of to_piecewise_bezier with the second, third and fourth control point of the piece, beginning where the previous one ended; it shows exactly the pieces if and only if the printed end of every piece is the printed start of the next.", "quantifier": "every list of cubic pieces and every way of printing numbers", "why_tests_cant": "any number of pieces", "anchors": ["src/model.rs:Model::save_as_svg"]}
{"id": "C84", "title": "SVG path of any polycurve", "statement": "Reading the emitted path by the SVG grammar (numbers, separators, implicit repetition) gives exactly: for lines the line between the points of the parameter range; for polylines all edges, whatever the range; for cubic B-splines the chained cubics, whatever the range; for every other segment the polygon through its sample points, joined by one more line to the end of the previous segment, if any.", "quantifier": "every polycurve whose sampled points are finite, any floating point behaviour", "why_tests_cant": "all mixtures of segments", "anchors": ["src/model.rs:Model::save_as_svg"]}
{"id": "C85", "title": "STEP edges: exact end points", "statement": "The segment read for a line edge with direction ratios d and vertices s, e on the line runs from o+|d|^2(s-o) to o+|d|^2(e-o), so it connects the vertices iff |d|=1 or both vertices are the line's origin. The segment read for a circle edge whose vertices lie on the circle connects them iff the axis is written with unit length or both vertices are at angle 0.", "quantifier": "every STEP file with such an edge", "why_tests_cant": "any direction ratios, any axis length", "anchors": ["src/model/step_reader.rs:extract_edge_curve", "src/model/step_reader.rs:extract_curve"]}
{"id": "C86", "title": "STEP reader: what is ignored, dropped or panics", "statement": "What is read does not depend on the orientation flags of oriented edges and face bounds or the sense flags of composite curve segments; an edge with an unsupported curve vanishes from its loop; a face on a complex surface without rational part vanishes; a rational part before the B-spline part panics.", "quantifier": "every STEP file", "why_tests_cant": "quantifies over all flag assignments and files", "anchors": ["src/model/step_reader.rs:ModelReader::read_model", "src/model/step_reader.rs:extract_surface", "src/model/step_reader.rs:extract_curve_segment"]}
{"id": "C87", "title": "STEP planes", "statement": "A face on a plane with placement (o, z, x) is read as o + u x + v (n x x), n = z or -z by the face's sense; its parametric normal is |x|^2 n when z and x are perpendicular; it keeps distances iff both axes are written with unit length.", "quantifier": "every STEP file with a plane face", "why_tests_cant": "any placement", "anchors": ["src/model/step_reader.rs:extract_surface"]}
{"id": "C88", "title": "STEP rational surfaces are the NURBS of the file", "statement": "A complex surface entity with B-spline, knot and rational parts is read as the surface whose points are the weighted B-spline combination of the file's points divided by the same combination of the weights, with the file's knots, multiplicities and degrees.", "quantifier": "every net size, degree below 256, knots, positive weights", "why_tests_cant": "unbounded nets and real parameters", "anchors": ["src/model/step_reader.rs:extract_surface", "src/model/step_reader.rs:extract_weighted_control_points", "src/model/step_reader.rs:extract_knot_vector"]}
{"id": "C89", "title": "STEP closed circular edges collapse", "statement": "A circular edge that starts and ends at the same vertex is read with an empty parameter range in either sense; however it is sampled, all sample points are that vertex.", "quantifier": "every STEP file, tolerance and random draws", "why_tests_cant": "all samplings", "anchors": ["src/model/step_reader.rs:extract_edge_curve", "src/curve/circle.rs:Circle::refine_parameter_range"]}
{"id": "C90", "title": "STEP faces without a mesh", "statement": "Faces on Bezier surfaces, rational B-spline surfaces, complex surface entities and surfaces of revolution are read, but trimming them gives the empty mesh for all bounds.", "quantifier": "every STEP file and bounds", "why_tests_cant": "all bounds", "anchors": ["src/model/step_reader.rs:extract_surface", "src/surface.rs:Surface::trim"]}
{"id": "C91", "title": "Bernstein weights in binary64", "statement": "For every f64 parameter u in [0,1] and every n up to 2^40 the function bernstein returns n finite weights that are not negative, each equal to the exact Bernstein polynomial at u up to a relative error (n-1)*2^-51 plus an underflow term (n-1)*2^-1072; they sum to one up to that error, and at u=0 and u=1 they are exact.", "quantifier": "all f64 parameters in [0,1] and all n, IEEE 754 binary64 with round to nearest even", "why_tests_cant": "2^62 parameters per n; the bound is about all roundings", "anchors": ["src/basis.rs:bernstein"]}
{"id": "C92", "title": "Bezier curves in binary64", "statement": "For every f64 parameter in [0,1] and control points with finite f64 coordinates of absolute value at most M (at most 2^1022), BezierCurve::get_point returns finite coordinates within n*2^-50*M + n*2^-1073 of the exact point of the curve; at the ends it returns exactly the first and last control point; it leaves a box around the control points by at most that error.", "quantifier": "all f64 control points, any number up to 2^40, all f64 parameters in [0,1]", "why_tests_cant": "all floating point inputs", "anchors": ["src/curve/bezier.rs:BezierCurve::get_point", "src/basis.rs:bernstein"]}
{"id": "C93", "title": "Range and search utilities in binary64", "statement": "For all f64 values including infinities and NaN: clamp_in_range panics iff an end of the range is NaN, keeps NaN and numbers in the range and otherwise gives the end on the side of the number; find_nearest_parameter returns a number in the range, a sample parameter or NaN; find_nearest_point (also in grids) returns the first index whose computed squared distance no other is below. For coordinates up to 2^509 the point found is nearest up to a factor 1+2^-48 of the exact squared distance. On finite numbers get_min_max is exact.", "quantifier": "all f64 inputs, any number of points", "why_tests_cant": "all floating point inputs including NaN and infinities", "anchors": ["src/utils.rs:clamp_in_range", "src/utils.rs:find_nearest_parameter", "src/utils.rs:find_nearest_point", "src/utils.rs:find_nearest_point_in_grid", "src/utils.rs:get_min_max_by_key"]}
{"id": "C94", "title": "Knot vectors in binary64", "statement": "For up to 2^50 divisions uniform_knot gives finite sorted f64 knots whose inner knots are strictly increasing, strictly between 0 and 1 and equal to i/division up to a relative error 2^-51. normalize of a sorted vector of finite f64 knots of positive finite extent gives finite sorted knots in [0,1] with exactly 0 and 1 at the ends and relative error 2^-50 next to underflow.", "quantifier": "all f64 knot vectors, all degrees and divisions", "why_tests_cant": "all floating point inputs", "anchors": ["src/knot.rs:KnotVector::uniform_knot", "src/knot.rs:KnotVector::normalize"]}
{"id": "C95", "title": "Subdivision of parameter ranges in binary64", "statement": "For every f64 range with finite ends up to 2^1022 whatever parameter_division returns is finite, sorted and inside the range, and with random numbers in [0,1) the curve is evaluated only at parameters inside the range. uniform_divide of a range with ends up to M <= 2^1000 into d <= 2^40 parts gives d+1 finite parameters, the two ends exactly and the i-th equal to lo + i(hi-lo)/d up to i(2^-50 M + 2^-1074); an inner parameter can exceed the upper end.", "quantifier": "all f64 ranges, curves, tolerances, random numbers and recursion depths", "why_tests_cant": "all floating point inputs", "anchors": ["src/utils.rs:parameter_division", "src/utils.rs:uniform_divide", "src/utils.rs:range_at"]}
{"id": "C96", "title": "Normals of B-spline surfaces", "statement": "For a valid B-spline surface of degrees >= 1, get_normals returns for parameters inside knot spans of the domain one vector per parameter pair: wherever the two partial derivatives are linearly independent it is the unit vector perpendicular to both that makes (dS/du, dS/dv, n) right-handed.", "quantifier": "every valid surface, every list of parameters", "why_tests_cant": "all surfaces; relates the output to the true partial derivatives", "anchors": ["src/surface/bspline.rs:BSplineSurface::get_normals", "src/surface/bspline.rs:BSplineSurface::derivative_u", "src/surface/bspline.rs:BSplineSurface::derivative_v"]}
{"id": "C97", "title": "Vertices added by the advancing front", "statement": "Whenever generate_triangular_mesh returns, every vertex it added forms a triangle of the mesh with an edge of earlier vertices, lies strictly to the left of that edge at equal distances from its (different) ends, and the triangle is equilateral up to a relative error 1e-13 of the squared sides if the edge is at least MIN_GRID_SIZE long; over shorter edges its height is 0.01*sqrt(3)/2.", "quantifier": "every point list and loops, every terminating run", "why_tests_cant": "all runs of an unbounded loop", "anchors": ["src/utils/meshgen.rs:generate_triangular_mesh", "src/utils/meshgen.rs:point_on_normal_bisector"]}
{"id": "C98", "title": "Subdivision does not end at a jump", "statement": "parameter_division of a curve that jumps from A to B inside the range, with a tolerance up to 0.4|A-B| (curve within eps of A before and of B after: tol + 2.8 eps <= 0.4|A-B|), recurses for ever, whatever numbers are drawn; so does the B-spline of degree 1 with knots 0,0,1,1,2,2 and control points A,A,B,B. A straight line is accepted at once in exact arithmetic, but in f64 there is a line, range, tolerance 1e-5 and draw for which the recursion never ends.", "quantifier": "every such curve, every recursion depth, every sequence of draws", "why_tests_cant": "non-termination cannot be tested", "anchors": ["src/utils.rs:parameter_division"]}
{"id": "C99", "title": "B-spline weights in f64", "statement": "For finite sorted knots (neighbours equal or at least 2^-51 apart, up to 2^40 of them) and every f64 parameter u of the domain [t_p, t_(n-p)) bspline_basis returns n-p finite non-negative weights whose errors against the Cox-de Boor basis functions of the real knots add up to at most p*2^-49, so their sum is 1 up to the same bound; at the end of a clamped vector they are exactly 0,...,0,1. At the start they need not be exact (knots 0,0,49,49), and with a span of 2^-52 the weights at the start are those of the end.", "quantifier": "every knot vector and every f64 parameter", "why_tests_cant": "rounding errors of every input; samples show neither the bound nor its constants", "anchors": ["src/knot.rs:bspline_basis", "src/knot.rs:span_index", "src/utils.rs:inv_or_zero"]}
{"id": "C100", "title": "B-spline curves in f64", "statement": "Evaluating a B-spline curve of degree p at every f64 parameter of its domain gives finite coordinates within (p+1)*2^-48*M + (p+1)*2^-1073 of the exact point (M bounds the coordinates of the control points), independently of the number of control points; at the end of a clamped knot vector it gives exactly the last control point, at the start not always exactly the first.", "quantifier": "every curve and every f64 parameter", "why_tests_cant": "rounding errors of every input", "anchors": ["src/curve/bspline.rs:get_point", "src/knot.rs:bspline_basis"]}
{"id": "C101", "title": "Mixed derivatives of B-spline surfaces agree", "statement": "For a valid B-spline surface whose end knots are repeated, derivative_u followed by derivative_v and derivative_v followed by derivative_u both succeed and give the same surface; its control points are the scaled second differences of the net.", "quantifier": "every valid surface with repeated end knots", "why_tests_cant": "all degrees, knot vectors and nets", "anchors": ["src/surface/bspline.rs:derivative_u", "src/surface/bspline.rs:derivative_v"]}
{"id": "C102", "title": "Projection onto B-spline surfaces", "statement": "For a valid B-spline surface of degrees at least 1 with repeated end knots project_points always succeeds (exact arithmetic), returns one parameter pair per point inside the parameter rectangle, obtained from the nearest of the (4 rows + 1)(4 cols + 1) samples by at most 20 clamped Newton steps of the distance function, and it stops early only at a pair meeting the stop criterion. In binary64 this fails: with a pole of the surface the Newton system is singular, the parameter becomes NaN and the run panics with an index error.", "quantifier": "every valid surface and list of points", "why_tests_cant": "the Newton iteration on every surface and point", "anchors": ["src/surface/bspline.rs:project_points"]}
{"id": "C103", "title": "STEP reader: supported files are read as what they say", "statement": "If every composite curve and every advanced face of the file is built of supported entities (lines, circles, polylines, B-spline curves with knots; planes, cylinders, Bezier, B-spline, rational B-spline surfaces, complex rational surfaces, surfaces of revolution; edge loops of oriented edges), read_model returns exactly one polycurve per composite curve and one face per advanced face, in the order of the file, each with the curve, surface, degrees (up to 255), expanded knots, control points, weights and bounds the entities denote; the points of a B-spline surface with knots are the sums of N_i(u) M_j(v) P_ij.", "quantifier": "every parsed file and any number type", "why_tests_cant": "all files; entity graphs of any size", "anchors": ["src/model/step_reader.rs:ModelReader::read_model", "src/model/step_reader.rs:extract_surface", "src/model/step_reader.rs:extract_curve", "src/model/step_reader.rs:extract_edge_curve", "src/model/step_reader.rs:extract_curve_segment"]}
{"id": "C104", "title": "bound.obj draws the closed polygon", "statement": "For a non-empty list of points save_bound_as_obj writes them in order and line segments with valid indices that are exactly the edges of the closed polygon through them; for an empty list it writes a segment with the invalid index 0; the loops of a face with several bounds are drawn as one polygon with bridges in place of their closing edges.", "quantifier": "every list of points", "why_tests_cant": "all list lengths", "anchors": ["src/surface/bspline.rs:save_bound_as_obj"]}
{"id": "C105", "title": "Patch files are loaded patch by patch", "statement": "For a patch file (count, then per patch a header m n and (m+1)(n+1) points) with at least one patch, the loader of the examples makes one surface per patch, in order, whose net has m+1 rows and n+1 columns with entry (i,j) the point number j(m+1)+i; for Bezier patches of orders at least 1 and B-spline patches of degree at most the orders it succeeds. Blank lines and lines with more than three tokens are ignored, the count and the second order are not used, and a file without patches panics.", "quantifier": "every patch file, any number format that round-trips", "why_tests_cant": "all numbers and sizes of patches", "anchors": ["examples/bezier.rs:load_teapot", "examples/bspline.rs:load_teapot"]}
{"id": "C106", "title": "Rounding error of Bezier and B-spline surfaces", "statement": "In binary64, for a net of finite control points of absolute value at most M, evaluation of a Bezier surface at parameters of the unit square differs from the exact point by at most r*c*2^-49*M plus underflow, of a B-spline surface of degrees p, q at parameters of the domain by at most (p+1)(q+1)*2^-48*M plus underflow, whatever the size of the net; the corners of the unit square give exactly the corners of a Bezier net, the ends of clamped knots exactly the last corner of a B-spline net.", "quantifier": "all nets, knot vectors, degrees and binary64 parameters", "why_tests_cant": "binary64 parameters and control points cannot be enumerated", "anchors": ["src/surface/bezier.rs:get_point", "src/surface/bspline.rs:get_point"]}
{"id": "C107", "title": "Rounding error of rational curves and surfaces", "statement": "In binary64, for homogeneous control points with coordinates at most M, weights at least w > 0 and Euclidean coordinates at most R, if the bound e of the rounding error of the homogeneous sum is at most w/2 then the division by the weight is safe and rational Bezier and B-spline curves and surfaces differ from the exact point by at most (1+R)(2e/w + 2^-50) in every coordinate; with weights below 2^-1024 the result may be infinite.", "quantifier": "all rational curves and surfaces and binary64 parameters", "why_tests_cant": "binary64 parameters and control points cannot be enumerated", "anchors": ["src/curve/bezier.rs:get_point", "src/curve/bspline.rs:get_point", "src/surface/bezier.rs:get_point", "src/surface/bspline.rs:get_point"]}
{"id": "C108", "title": "B-spline curves across their knots", "statement": "Over the reals, a B-spline curve none of whose knots strictly inside the range has a multiplicity above the degree is continuous on its closed range, knots included; if the curve is clamped and no inner multiplicity exceeds degree - 1, it is differentiable on the closed range, the value of the curve returned by derivative() is its derivative at every parameter, knots included, and this is continuous.", "quantifier": "all valid curves, points of any dimension, all parameters", "why_tests_cant": "continuity at a knot concerns infinitely many nearby parameters", "anchors": ["src/curve/bspline.rs:get_point", "src/curve/bspline.rs:derivative", "src/knot.rs:bspline_basis"]}
{"id": "C109", "title": "Adaptive subdivision ends on every kind of curve", "statement": "Over the reals and for every positive tolerance, parameter_division ends within a depth that does not depend on the random draws, for lines, circles, polylines of positive length, Bezier curves, rational Bezier curves with positive weights on [0,1], and clamped B-spline curves (rational with positive weights) none of whose inner knots exceeds the multiplicity of the degree, on any part of their range in either direction. For B-spline curves the depth is n+1 as soon as L*|range| < tol*2^(n+1), with L the largest p*|P_(i+1)-P_i|/(t_(i+p+1)-t_(i+1)). Hence the points of a segment, the polygon of a loop with at least one edge and the boundary vertices of a trimmed surface are always computed.", "quantifier": "all such curves, ranges, tolerances and outcomes of the random generator", "why_tests_cant": "termination of a randomised recursion for all draws", "anchors": ["src/utils.rs:parameter_division", "src/curve.rs:get_points", "src/surface.rs:to_polygon"]}
{"id": "C110", "title": "Linear and affine maps of the control points", "statement": "For every map of points that commutes with addition, subtraction, zero and scaling, moving all control points and then evaluating, differentiating, inserting a knot, splitting, clamping or decomposing a Bezier or B-spline curve, or evaluating or differentiating a B-spline surface, gives the moved result, and the same panic when there is one; no law of arithmetic is used, so in binary64 the coordinates of the points never interact. In exact arithmetic affine maps move Bezier curves and surfaces everywhere, B-spline curves and surfaces on their domain, and rational ones wherever the denominator is not zero.", "quantifier": "all such maps, curves, surfaces and parameters, any scalar type for the linear part", "why_tests_cant": "a test fixes the map and the curve", "anchors": ["src/curve/bezier.rs:get_point", "src/curve/bspline.rs:get_point", "src/curve/bspline.rs:add_knot", "src/curve/bspline.rs:split", "src/curve/bspline.rs:to_piecewise_bezier", "src/surface/bspline.rs:derivative_u"]}
{"id": "C111", "title": "Rigid motions of the input move the output", "statement": "For every orientation-preserving rigid motion of space: moving a line, circle, polyline, Bezier curve, B-spline curve with repeated end knots, plane, cylinder, surface of revolution or B-spline surface moves the points it returns and leaves the parameters it projects points to unchanged; curves are subdivided at the same parameters for the same random draws; edge loops give the moved polygons; trimming a moved plane, cylinder or B-spline surface by moved loops gives the moved mesh with the same triangles and the same failures; and the mesh of a moved patch is the moved mesh with turned normals.", "quantifier": "all rigid motions, curves, surfaces, loops, points and random draws, reals", "why_tests_cant": "a test fixes the motion and the shape", "anchors": ["src/curve.rs:get_points", "src/surface.rs:to_polygon", "src/surface/plane.rs:trim", "src/surface/cylinder.rs:trim", "src/surface/bspline.rs:trim", "src/surface/bspline.rs:project_points", "src/surface/bspline.rs:get_normals", "src/face.rs:get_triangle_mesh"]}
{"id": "C112", "title": "No plane is crossed more often by a curve than by its control polygon", "statement": "Let a plane be given by a linear function and a level. Whenever a Bezier curve on [0,1], a B-spline curve on its domain, or a rational B-spline curve with positive weights is alternately on the two sides of the plane at n increasing parameters, there are n control points, in the order of the control polygon, on the same sides. In particular a curve does not go back in a direction in which its control points do not go back.", "quantifier": "all curves, planes and lists of parameters, exact arithmetic", "why_tests_cant": "a test fixes the curve, the plane and the number of crossings", "anchors": ["src/curve/bezier.rs:get_point", "src/curve/bspline.rs:get_point", "src/knot.rs:bspline_basis", "src/basis.rs:bernstein"]}
{"id": "C113", "title": "Planar predicates in binary64 are right beyond an explicit margin", "statement": "For points with finite coordinates up to 2^509 the rounded determinant of two differences is finite and off by at most 5 eps (|x y'| + |y x'|) + 3 eta (eps = 2^-53, eta = 2^-1075). Corners clearing the tolerance by that margin get the right convexity, points inside (outside) a triangle by the margin are found inside (outside), with and without tolerance, and segments whose ends are off each other's lines by the margin are told to intersect exactly if they do; the orientation of a polygon is right if the area is beyond (2n+4) eps times the sum of its trapezoids. Reversing a corner exchanges convex and concave and the segment test does not depend on the order of its arguments, rounding included. Inside the margin each predicate has an input on which it is wrong, one of them by underflow of a product of determinants.", "quantifier": "all finite binary64 points up to the stated size, all polygons up to 2^50 vertices", "why_tests_cant": "a test samples points; the margin is a statement about every rounding", "anchors": ["src/utils/polygon.rs:is_polygon_counter_clockwise", "src/utils/polygon.rs:compute_convexity", "src/utils/polygon.rs:is_inside_triangle", "src/utils/point.rs:is_inside_triangle", "src/utils/meshgen.rs:is_segments_intersect"]}
{"id": "C114", "title": "Patches with a common edge have no cracks in binary64", "statement": "For finite control points, at the ends of the unit square a Bezier surface gives exactly, except for the signs of zeros, the points of the Bezier curve of the control points along that side (all four sides, plain and homogeneous control points). Hence two patches whose control points agree along a side of each agree there for every parameter, also after the division of rational patches where the weight does not vanish, and the vertices of their meshes along the side agree when it is divided equally often (up to 2^24 times). A B-spline surface has this at the end of a clamped knot vector but not at its start: two surfaces with a common edge are shown whose corners differ by 2^-52.", "quantifier": "all nets of finite points up to 2^40 rows and columns, all binary64 parameters, all divisions", "why_tests_cant": "a test compares some vertices of some patches; absence of cracks is a statement about every rounding", "anchors": ["src/surface/bezier.rs:get_point", "src/surface/bspline.rs:get_point", "src/face.rs:get_triangle_mesh", "src/utils.rs:uniform_divide"]}
{"id": "C115", "title": "The example programs write the triangles of the patches in the file they read", "statement": "For every number type, binary64 included, examples/bezier.rs succeeds on every patch file whose orders are at least 1, and the STL file and the OBJ file it writes hold the same triangles in the same order: for every patch the two triangles of every cell of the grid of points computed by get_point. In exact arithmetic these are the points of the tensor product Bezier surfaces of the file at the parameters i/a, j/b. The same holds over the reals for examples/bspline.rs when the degrees are at least 1 and at most the orders. examples/convert_stp.rs writes an OBJ file exactly if the model has faces and an SVG file exactly if it has curves, with the triangles of all faces and one path for every curve.", "quantifier": "all patch files, orders, control points, divisions and degrees within the ranges of the counters", "why_tests_cant": "a run of an example exercises one file; the composition of reading, evaluation, meshing and two output formats is a statement about all files", "anchors": ["examples/bezier.rs:main", "examples/bspline.rs:main", "examples/convert_stp.rs:main", "src/model.rs:save_as_stl", "src/model.rs:save_as_obj"]}
{"id": "C116", "title": "Reversed control data give the reversed curve, transposed nets the transposed surface", "statement": "In exact arithmetic a Bezier curve with its control points reversed has at 1-u the value of the original at u, and a B-spline curve with control points and knots reversed and mirrored has at sigma-u the value of the original at u, for every u of the knot range including knots and ends, if interior knots have multiplicity at most the degree. Bezier and B-spline surfaces with transposed nets and exchanged knot vectors and degrees have at (v,u) the value of the original at (u,v). The same holds for the rational ones. Over the reals derivative_u of the transposed surface is the transposed derivative_v and all normals change their sign. For every number type the mesh of a patch with exchanged parameters has the same triangles, each turned over.", "quantifier": "all control points and nets, knot vectors, degrees, parameters and divisions", "why_tests_cant": "the half-open spans of the evaluation are not symmetric, so the statement at the knots needs continuity; samples avoid exactly those parameters", "anchors": ["src/curve/bezier.rs:get_point", "src/curve/bspline.rs:get_point", "src/surface/bezier.rs:get_point", "src/surface/bspline.rs:get_point", "src/surface/bspline.rs:get_normals", "src/face.rs:get_triangle_mesh"]}
{"id": "C117", "title": "Sampled curves are not longer than their control polygons", "statement": "For every B-spline curve with more control points than its degree and every list of increasing parameters of its domain, and for every Bezier curve and increasing parameters of [0,1], the path through the computed points is not longer than the control polygon, for every measure of steps with the triangle inequality and proportionality. Over the reals the length that Polyline::new stores for the computed points lies between the distance of the ends and the length it stores for the control points.", "quantifier": "all control points, knot vectors, degrees, lists of parameters and measures of length", "why_tests_cant": "a bound on the length of every refinement at once; any sampling shows only one path", "anchors": ["src/curve/bspline.rs:get_point", "src/curve/bezier.rs:get_point", "src/curve/polyline.rs:new", "src/curve.rs:get_points"]}
{"id": "C118", "title": "Sampling returns finite points only, and never returns on a polyline without length", "statement": "In binary64, for every curve, tolerance, range and outcome of the random numbers: when parameter_division returns, the curve has a finite point at every returned parameter and the tolerance is positive. So get_points, EdgeLoop::to_polygon and the boundary vertices of trim contain finite points only. A curve whose point at an end of the range is infinite or NaN is never divided. In particular get_points on a polyline of two or more equal finite vertices never returns on the range (0, 1) or on a range ending strictly inside it: every recursion depth is exhausted.", "quantifier": "all curves, tolerances, parameter ranges, random draws and recursion depths, all binary64 numbers including infinities and NaN", "why_tests_cant": "non-termination and the absence of NaN quantify over all random draws and all depths; a test that never returns shows nothing", "anchors": ["src/utils.rs:parameter_division", "src/curve.rs:get_points", "src/surface.rs:to_polygon", "src/curve/polyline.rs:get_point"]}
{"id": "C119", "title": "Ear clipping is complete on simple polygons in general position", "statement": "In exact arithmetic, for every simple counter-clockwise polygon of at least three vertices of which no three are within tolerance of a line, compute_vertex_convexity followed by trianglate_polygon succeeds and returns a complete triangulation: exactly n - 2 triangles, all counter-clockwise, with the area of the polygon as their total area. Off the lines through two vertices the winding number of the polygon is 0 or 1; a point with winding number 0 is in no triangle and one with winding number 1 in exactly one. The reason: such a polygon has an ear away from any given edge, so no pass over the vertices is without a clip.", "quantifier": "all simple polygons of any number of vertices in general position, all binary searches meeting their contract, all points of the plane off the lines through two vertices", "why_tests_cant": "completeness rests on the two-ears theorem for polygons of every size; tests can only try single polygons", "anchors": ["src/utils/polygon.rs:trianglate_polygon", "src/utils/polygon.rs:compute_vertex_convexity", "src/utils/polygon.rs:is_ear", "src/utils/polygon.rs:is_inside_triangle"]}
{"id": "C120", "title": "Ear clipping in binary64 is complete on polygons clear of the tolerance and of the rounding error", "statement": "Let the vertices of a simple counter-clockwise polygon be binary64 numbers of absolute value at most M <= 2^509, and let every three of them span a triangle of twice the area more than 2^-23 + M^2 / 2^47. Then compute_vertex_convexity followed by trianglate_polygon, with all roundings, succeeds and returns n - 2 triangles that tile the polygon as in C119: positive, with the right total area, no gaps and no overlaps. For integer coordinates up to 2^23 it is enough that no three vertices are on a line. Beyond such bounds it fails: a counter-clockwise triangle of area 1/2 with coordinates up to 2^28 + 1 loses all its vertices and trianglate_polygon overflows at n - 2.", "quantifier": "all binary64 polygons of any number of vertices that meet the margin, all binary searches meeting their contract", "why_tests_cant": "rounding errors of the determinants in every test of every pass; the failing triangle has ordinary coordinates", "anchors": ["src/utils/polygon.rs:trianglate_polygon", "src/utils/polygon.rs:compute_vertex_convexity", "src/utils/polygon.rs:compute_convexity", "src/utils/polygon.rs:is_inside_triangle"]}
{"id": "C121", "title": "Planar faces with one simple loop are meshed without gaps and overlaps", "statement": "For a plane trimmed by a single loop whose projection is simple, counter-clockwise, of at least three vertices and in general position (no three within tolerance of a line), Plane::trim succeeds in exact arithmetic and its mesh tiles the inside of the loop: all triangles are counter-clockwise, their areas add up to that of the loop, and off the lines through two vertices each point is in as many triangles as the loop winds around it, 0 or 1. Convex loops become a fan of n triangles around the centroid of the vertices, other loops n - 2 triangles of the vertices. In binary64 the same holds with the margin of C120, for convex loops up to the position of the centre. For a clockwise loop with a corner that turns left it fails: a quadrilateral is meshed with a triangle outside of it.", "quantifier": "all planes, loops of any number of vertices meeting the hypotheses, all points of the plane off the lines through two vertices, all oracles of the sampling", "why_tests_cant": "a statement about all points of the plane and all polygons; rests on the theorem that a simple polygon with left turns only is convex", "anchors": ["src/surface/plane.rs:trim", "src/utils/polygon.rs:trianglate_polygon", "src/utils/polygon.rs:compute_vertex_convexity"]}
{"id": "C122", "title": "The advancing front covers its region without gaps, and without overlaps when the mesh conforms", "statement": "For generate_triangular_mesh in exact arithmetic, whatever nodes it selects, and every run that returns: off the lines through two vertices, the number of counter-clockwise triangles around a point minus the number of clockwise ones equals the number of times the loops wind around it. Hence every point the loops wind around a positive number of times is covered (no gaps). If moreover the returned vertices are clear of the tolerance and no vertex is on an edge of the mesh, all triangles are counter-clockwise, and each point is in exactly as many triangles as the loops wind around it (no overlaps). A region bounded by a clockwise loop never gets such a mesh.", "quantifier": "all vertex lists, loops, selections meeting the contract of lines 112-120, fuels, and points off the lines through two vertices", "why_tests_cant": "a statement about every point of the plane and every run; the mesh grows in an order that depends on all earlier choices", "anchors": ["src/utils/meshgen.rs:generate_triangular_mesh", "src/utils/meshgen.rs:find_intersection_with_front", "src/utils/meshgen.rs:point_on_normal_bisector"]}
{"id": "C123", "title": "Meshes of planar faces cover each point as often as the loops wind around it, with sign; holes lose or overlap triangles", "statement": "For ear clipping, and for planar faces with any number of holes merged into the outer loop: if the number of triangles is complete, the counter-clockwise triangles around a point outnumber the clockwise ones by the sum of the winding numbers of all loops, off the lines through two vertices; if all triangles are counter-clockwise each point inside the outer loop and outside the holes is in exactly one. Completeness and orientation are not guaranteed with holes: for a quadrilateral with a triangular hole strictly inside Plane::trim returns an empty mesh without any error, and for another one a complete mesh with an overlapping clockwise triangle.", "quantifier": "all polygons, all planar faces with any number of holes, all points off the lines through two vertices", "why_tests_cant": "a statement about every point of the plane; the failures appear only for particular positions of the hole", "anchors": ["src/utils/polygon.rs:trianglate_polygon", "src/utils/polygon.rs:merge_polygons", "src/surface/plane.rs:trim"]}
{"id": "C124", "title": "The advancing front takes the best candidate, prefers nodes inside, and settles on free triangles", "statement": "The two sorts, the removal of duplicates and the pop of find_intersection_with_front select, for totally ordered factors, the candidate of greatest factor, and of these the one of greatest node number; there is none only without candidates. Twelve times the squared shape factor is at most 1, so that a node inside the tested triangle always beats one that is not, and of the nodes inside one with the best shape is taken. When the loop over the nodes ends, no other front node is in the resulting triangle (or in the trial triangle, when a vertex is added) and no front edge has a point in common with its two new sides unless they share a node.", "quantifier": "all candidate lists, fronts, vertices and edges", "why_tests_cant": "a statement about all fronts; the comparators depend on the node and the factor, and ties occur for special positions only", "anchors": ["src/utils/meshgen.rs:find_intersection_with_front", "src/utils/meshgen.rs:shape_factor", "src/utils/meshgen.rs:generate_triangular_mesh"]}
{"id": "C125", "title": "Trimmed cylinders and B-spline surfaces are covered in their parameter planes as often as their loops wind", "statement": "For trim of cylinders and B-spline surfaces in exact arithmetic, and every run that returns: the vertices of the mesh have parameters in the plane to which the loops are projected (those of the loop points are their projections, new vertices are mapped to the surface from theirs), and off the lines through two parameters the number of counter-clockwise triangles around a point minus the number of clockwise ones equals the number of times the projected loops wind around it, negated for a single loop, which is reversed. If no vertex of the projected loops is on an edge of theirs other than its own and the parameters of the vertices are clear of the tolerances, each point is in exactly as many triangles as the absolute value of that number.", "quantifier": "all cylinders and B-spline surfaces, loops, selections meeting the contract, and points off the lines through two parameters", "why_tests_cant": "a statement about every point of the parameter plane and every run", "anchors": ["src/surface/cylinder.rs:trim", "src/surface/bspline.rs:trim", "src/utils/meshgen.rs:generate_triangular_mesh"]}
{"id": "C126", "title": "Meshes cover what their boundaries enclose when seen from any side, whatever the rounding", "statement": "In any arithmetic, in particular binary64 with all its rounding errors, and for every map of its points to an exact plane, in particular the real values of the coordinates followed by projection along any direction: off the lines through two vertices, the number of counter-clockwise triangles of the mesh around a point minus the number of clockwise ones equals the number of times the boundary winds around it. This holds for the advancing front, for trimmed cylinders and B-spline surfaces (negated for a single loop), for ear clipping and planar faces with holes when the number of triangles is complete, and for surface patches, whose boundary is the loop of samples on the four sides. So a point that the boundary winds around is covered by at least as many triangles.", "quantifier": "all arithmetics, all maps to an exact plane, all inputs on which the functions return, all points off the lines through two vertices", "why_tests_cant": "a statement about all points of all projections, independent of rounding", "anchors": ["src/utils/meshgen.rs:generate_triangular_mesh", "src/utils/polygon.rs:trianglate_polygon", "src/surface/plane.rs:trim", "src/surface/cylinder.rs:trim", "src/surface/bspline.rs:trim", "src/face.rs:get_triangle_mesh"]}
{"id": "C127", "title": "Knot insertion, clamping, splitting and conversion to Bézier curves keep the curve up to a few roundings in binary64", "statement": "Take a B-spline curve in binary64 with sorted finite knots (equal or at least 2^-51 apart, told apart by ulps_eq) and control points with coordinates up to M. Inserting knots of its range one after the other panics exactly when exact arithmetic would; otherwise the knots and the number of control points are exactly right, and the curve through the computed control points differs from the given one by at most 2^-48 M per inserted knot, in every coordinate, at every real parameter of the knot range. Likewise clamping (at most 2(p+1) insertions), splitting (no panic, both pieces within (p+1) 2^-48 M of the curve) and conversion to Bézier curves (within (p+1) k 2^-48 M for k distinct knots), the last two for knots and parameter equal or at least 2^-22 apart. Together with evaluation in binary64, points evaluated after the insertions are within (2(p+1)+n) 2^-48 M of the exact curve, next to underflow.", "quantifier": "all curves with finite data within the bounds, all knots, all parameters of the knot range", "why_tests_cant": "an error bound over all binary64 inputs and all real parameters", "anchors": ["src/curve/bspline.rs:add_knot", "src/curve/bspline.rs:split", "src/curve/bspline.rs:clamp", "src/curve/bspline.rs:to_piecewise_bezier", "src/knot.rs:add_knot"]}
{"id": "C128", "title": "Where sampling honours its tolerance, and cracks between faces with a common edge", "statement": "Whatever numbers are drawn, the polygon sampled by parameter_division and the curve are nowhere further apart (both ways) than: 0 for lines, 25/24 of the tolerance for quadratic Bezier curves, 10/9 of the tolerance for circles over at most a full turn, and 25/24 of the tolerance plus 3/20 of the third difference of the control points times the cubed width of the range for cubic Bezier curves. Hence two samplings of one edge, as made by two faces sharing it, are never further apart than the sum of their bounds. The tolerance is not honoured in general: for every distance K and tolerance there is a cubic Bezier curve and an interval of draws with which only the two ends are sampled though the curve leaves the polygon by more than K; circles over two turns can collapse to a point; and two samplings of one parabola can differ by a vertex as far from the other polygon as the tolerance.", "quantifier": "all curves of the named kinds, all ranges, all draws, all tolerances", "why_tests_cant": "the draws are random and every chord accepted by the recursion must be bounded along its whole length", "anchors": ["src/utils.rs:parameter_division", "src/curve.rs:get_points", "src/curve/circle.rs:get_point"]}
{"id": "C129", "title": "Derivatives computed in binary64", "statement": "In binary64, derivative of a B-spline curve or a Bezier curve never panics on increasing well separated knots and its value at any parameter of the domain is within p * 2^-47 * D + p * 2^-1072 of the true derivative of the curve there, in every coordinate, where p is the degree and D bounds the control points of the exact derivative; derivative_u and derivative_v of a B-spline surface likewise with p*(q+1) and (p+1)*q.", "quantifier": "all curves and surfaces with finite control points up to 2^900, all parameters in the domain, all degrees", "why_tests_cant": "every coordinate passes through a subtraction, a division, a multiplication and an evaluation, each rounded; cancellation makes the relative error unbounded unless measured against the exact slopes", "anchors": ["src/curve/bspline.rs:BSplineCurve::derivative", "src/curve/bezier.rs:BezierCurve::derivative", "src/surface/bspline.rs:BSplineSurface::derivative_u", "src/surface/bspline.rs:BSplineSurface::derivative_v"]}
{"id": "C130", "title": "Surface normals computed in binary64", "statement": "In binary64, get_normals of a B-spline surface of degree at least 1 in both directions never panics on increasing well separated knots, returns one vector per parameter, and each is within k * 2^-42 * Du * Dv / |Su x Sv| + 2^-49 of the exact unit normal in every coordinate wherever the first term is at most 1, where Su and Sv are the true partial derivatives at the parameter, Du and Dv bound the control points of the exact partial derivatives and k = (p+1)*(q+1).", "quantifier": "all surfaces with finite control points, all parameters in the domain at which the partial derivatives are not too nearly parallel", "why_tests_cant": "the cross product of two rounded derivatives cancels, so the error has no bound in terms of the result alone; it has to be measured against the angle between the tangents", "anchors": ["src/surface/bspline.rs:BSplineSurface::get_normals"]}
{"id": "C131", "title": "Which numbers ulps_eq! takes for equal", "statement": "The comparison behind knot multiplicities and inv_or_zero: on finite numbers up to 2^1022 it is symmetric and reflexive, false of NaN, true of numbers at most 2^-52 apart or at most 5 * 2^-53 of the smaller apart, and true only of numbers at most 2^-52 * (1 + 2^-52) or 2^-50 of the larger apart; it is not transitive. Knots that are equal or further apart than max(2^-51, 2^-50 of their size) are told apart and multiplicity then counts the equal knots exactly.", "quantifier": "all pairs of finite binary64 numbers up to 2^1022 in absolute value; all knot vectors", "why_tests_cant": "the test works on bit patterns and depends on exponent boundaries, subnormals and signed zeros; which pairs it accepts cannot be enumerated", "anchors": ["src/knot.rs:KnotVector::multiplicity", "src/utils.rs:inv_or_zero"]}
{"id": "C132", "title": "OBJ files: an Ok result means the whole text is in the file, and the text reads back", "statement": "save_as_obj (of a mesh or a model) and save_bound_as_obj write through a LineWriter. In whatever pieces the text is handed over and whatever the operating system accepts in each access: the file always holds a first part of the text, and if the result is Ok it holds all of it, because every line written ends with a line feed; a file that takes everything gives Ok. Read by the OBJ rules (lines, blanks, a//n corners, decimal numbers) the bytes give back exactly the lines written, hence the triangles of the meshes.", "quantifier": "all meshes with valid indices, all divisions of the text into pieces, all behaviours of the file, every number format that can be read back and is ASCII", "why_tests_cant": "which bytes are in the buffer when an access fails depends on the lengths of all the lines before; failures in the last flush are invisible to a test on a healthy disk", "anchors": ["src/mesh.rs:TriangleMesh::save_as_obj", "src/mesh.rs:TriangleMesh::write_obj", "src/model.rs:Model::save_as_obj", "src/surface/bspline.rs:save_bound_as_obj"]}
{"id": "C133", "title": "Point cloud files: short writes go unnoticed", "statement": "save_point_cloud, save_point_cloud_with_normal and save_points call File::write once per line and ignore the number of bytes taken. The result is Ok exactly if no call fails, and the file then consists of the beginnings of the lines that were taken. If every line is taken whole the cloud reads back; otherwise it may not: for every nonempty cloud there is a behaviour of the file without any error after which the result is Ok and the cloud read back lacks its first point.", "quantifier": "all point clouds, all sequences of answers of the operating system", "why_tests_cant": "a test on a local disk never sees a short write", "anchors": ["src/points.rs:save_point_cloud", "src/points.rs:save_point_cloud_with_normal", "src/points.rs:save_points"]}
{"id": "C134", "title": "Trimmed cylinders with several loops put new vertices in the wrong place", "statement": "Cylinder::trim triangulates the loops in the plane of a ring and turns every vertex the triangulation adds back into a point of the cylinder. With one loop the point made projects to the vertex of the ring it was made for. With several loops the two coordinates of the vertex are taken for a height and an angle: the point lies on the cylinder, but projects to (R cos y d/(d-x), R sin y d/(d-x)) instead of (x, y), which is different whenever x is negative and y at most a quarter turn, so that the triangles covering the ring are not the triangles of the mesh.", "quantifier": "all cylinders with an orthonormal frame and positive radius, all loops, all triangulations, every new vertex", "why_tests_cant": "new vertices appear only when Delaunay refinement adds some, and all of them lie on the surface", "anchors": ["src/surface/cylinder.rs:Cylinder::trim", "src/surface/cylinder.rs:Cylinder::generate_point_from_ring", "src/surface/cylinder.rs:Cylinder::project_to_ring"]}
{"id": "C135", "title": "The advancing front keeps off its own nodes", "statement": "If no vertex of the input loops lies on an edge of the loops other than its own, no node of the front ever lies on an edge of the front other than its own, for every run of generate_triangular_mesh in exact arithmetic. So the triangles of the mesh are counter-clockwise and do not overlap more than the loops wind: whenever the vertices of the result are clear of the tolerances, each point off the lines through two vertices is in exactly as many triangles as the loops wind around it, with no condition on the edges of the mesh. In particular no run on loops winding negatively around some point returns vertices clear of the tolerances.", "quantifier": "all loops with vertices off their edges, all selections meeting the contract, all runs and all points off the lines through two vertices", "why_tests_cant": "an invariant of every state of an unbounded loop, and a statement about every point of the plane", "anchors": ["src/utils/meshgen.rs:generate_triangular_mesh", "src/utils/meshgen.rs:find_intersection_with_front", "src/utils/meshgen.rs:point_on_normal_bisector"]}
{"id": "C136", "title": "Loops of one closed edge vanish", "statement": "An edge of a STEP file that starts and ends at the same vertex, such as a full circle or a closed spline, is read with both ends of its parameter range equal. A face bound made of one such edge gives no vertices, and trim skips it: whatever the curve, the surface and the random numbers, the mesh of the face is the mesh of the face without that bound, so that round holes are filled; a plane or cylinder face bounded by such loops only, such as a disc, has an empty mesh.", "quantifier": "all files, faces, closed edges and random numbers", "why_tests_cant": "samples have polygonal bounds; the result is a valid mesh of a different face", "anchors": ["src/model/step_reader.rs:extract_edge_curve", "src/surface.rs:to_polygon", "src/surface/plane.rs:trim", "src/surface/cylinder.rs:trim", "src/surface/bspline.rs:trim"]}
{"id": "C137", "title": "Cylinder sides with a seam make the mesher run for ever", "statement": "The side of a cylinder, written in a STEP file the usual way as one bound of a circle, the seam, the other circle and the seam again (starting at any of the four), is read without an error, but trimming it never returns, whatever the random numbers: the polygon runs twice between the two ends of the seam, and on every such polygon the inner loop of generate_triangular_mesh has no end. The same holds of B-spline faces with such a polygon.", "quantifier": "all cylinders, seams, file layouts, random numbers and amounts of fuel", "why_tests_cant": "a run that does not return cannot be distinguished from a slow one by testing", "anchors": ["src/utils/meshgen.rs:generate_triangular_mesh", "src/utils/meshgen.rs:find_intersection_with_front", "src/surface/cylinder.rs:trim", "src/surface/bspline.rs:trim", "src/model/step_reader.rs:extract_edge_curve", "src/surface.rs:to_polygon"]}
{"id": "C138", "title": "Planar faces with straight edges go from STEP to OBJ as triangles that tile them", "statement": "If all faces of a STEP file lie in planes and have one bound of straight edges, each used in the direction in which it is written, and if the corners of each face form a simple polygon in general position, counter-clockwise as seen from the side of the normal, then convert_stp writes an OBJ file whose triangles, read back, tile every face without gaps and overlaps.", "quantifier": "all such files, all numbers of faces and corners, all runs", "why_tests_cant": "tests can look at a few polygons only; the chain from the file through edge loops, polygons, ear clipping and the writer is one statement", "anchors": ["src/model/step_reader.rs:extract_edge_curve", "src/surface.rs:to_polygon", "src/surface/plane.rs:trim", "src/utils/polygon.rs:trianglate_polygon", "examples/convert_stp.rs:main"]}
{"id": "C139", "title": "Faces that use edges against their direction lose triangles", "statement": "In a STEP file of triangular faces, a face that uses no edge against its direction gets three triangles, a face that uses one so gets five, not all different, and a face that uses two or three so gets none. If every edge is used as often in its direction as against it, as in the boundary of a solid, some face is missing in the OBJ file.", "quantifier": "all files of triangular faces, all orders of edges, all runs", "why_tests_cant": "the mesh of a face depends on how the neighbouring face was written; that no solid survives is a counting argument over all files", "anchors": ["src/model/step_reader.rs:extract_edge_curve", "src/surface.rs:to_polygon", "src/surface/plane.rs:trim", "src/utils/polygon.rs:trianglate_polygon", "examples/convert_stp.rs:main"]}
{"id": "C140", "title": "Edges between the ends of a B-spline curve or polyline keep the whole curve", "statement": "If the vertices of an edge are the two end points of its curve, in either order, and the curve is a polyline or a B-spline with clamped ends that does not come to its last point before (at none of the samples of the projection; for polylines and degree one, at no point of an earlier segment), the reader gives the edge the whole parameter range in that order, and its sample points start and end at the vertices.", "quantifier": "all polylines and all B-spline curves of degree one or more of this kind, both directions", "why_tests_cant": "the parameters come out of a search with a Newton iteration; tests on some curves do not show that no other sample wins or that the iteration never moves off the end", "anchors": ["src/model/step_reader.rs:extract_edge_curve", "src/utils.rs:find_nearest_parameter", "src/utils.rs:find_nearest_point", "src/curve/bspline.rs:project", "src/curve/polyline.rs:project"]}
{"id": "C141", "title": "Convex faces are covered exactly if no edge is used against its direction", "statement": "For a planar face of straight edges whose corners form a convex polygon, counter-clockwise as seen from the side of the normal, the triangles of the mesh are counter-clockwise and cover the face if and only if the loop uses none of its edges against its direction. In an OBJ file written from a STEP file of such faces the same holds face by face, so if the faces bound a solid at least one of them has a gap or a triangle that is turned over.", "quantifier": "all convex faces with any number of corners, all choices of directions, all files of such faces on which the program ends without an error", "why_tests_cant": "there are exponentially many ways to direct the edges of a face, and the ear clipping runs on a polygon that goes back and forth; samples do not show that no combination happens to be covered", "anchors": ["src/surface/plane.rs:trim", "src/surface.rs:to_polygon", "src/utils/polygon.rs:trianglate_polygon", "src/utils/polygon.rs:compute_vertex_convexity", "src/model/step_reader.rs:extract_edge_curve", "examples/convert_stp.rs:main"]}
{"id": "C142", "title": "Faces with a reflex corner are tiled although single edges are used against their direction", "statement": "For a planar face of straight edges that has a reflex corner, whose sides do not cross, whose corners are in general position and counter-clockwise as seen from the side of the normal: if no two edges in a row are used against their direction, the mesh exists, its vertices are corners of the face, it has two triangles fewer than the face has corners, and its triangles are counter-clockwise and tile the face. A STEP file of such faces and of faces that use all edges in their direction is converted to an OBJ file whose triangles tile all faces. If such faces bound a solid, every one of them has a reflex corner and uses exactly every second edge against its direction.", "quantifier": "all faces with any number of corners, all choices of directions without two backward edges in a row, all files of such faces", "why_tests_cant": "the claim is about the interplay of the duplicated vertices with the colinearity filter and the ear clipping for exponentially many choices of directions and infinitely many polygons", "anchors": ["src/surface/plane.rs:trim", "src/surface.rs:to_polygon", "src/utils/polygon.rs:trianglate_polygon", "src/utils/polygon.rs:compute_vertex_convexity", "src/model/step_reader.rs:extract_edge_curve", "examples/convert_stp.rs:main"]}
{"id": "C143", "title": "Planar faces reach the OBJ file whole in binary64", "statement": "With all numbers of the STEP file and all computations in binary64: let the coordinates be at most M, the directions of the lines have squared lengths within δ of 1, the vertices lie within Mδ of the lines of their edges (2^-46 ≤ δ, Mδ ≤ 2^-20), consecutive corners differ by more than 2^-10 in a coordinate, and every three corners of a face span, in its plane, twice an area of more than 2^-23 + 2^15 M²δ. If every face is planar with one simple counter-clockwise loop of at most 2^20 straight edges, all used in their direction, convert_stp writes an OBJ file without an error, and the faces read back from it are triangles that tile the faces of the STEP file exactly if their vertices are moved by at most 20Mδ + nM/2^51, n being the number of corners.", "quantifier": "all files of such faces, all M and δ in these ranges, all random numbers between 0 and 1", "why_tests_cant": "the drift of the vertices comes from projecting vertices to lines whose directions are not exactly unit vectors and back; a test sees some files and cannot bound it for all", "anchors": ["src/curve/line.rs:project", "src/curve/line.rs:get_point", "src/surface/plane.rs:trim", "src/surface/plane.rs:project", "src/surface.rs:to_polygon", "src/utils/polygon.rs:trianglate_polygon", "src/utils/polygon.rs:compute_vertex_convexity", "src/utils.rs:parameter_division", "src/model/step_reader.rs:extract_edge_curve", "examples/convert_stp.rs:main"]}
{"id": "C144", "title": "Curves keep the turning sense of their control polygon", "statement": "Take increasing parameters in the domain of a B-spline curve. The matrix of the weights bspline_basis returns at them has no negative minor. Hence, for any d linear coordinates, if every d+1 control points taken in order have a non-negative orientation (determinant of their coordinates with a column of ones), so have the d+1 points of the curve at increasing parameters: a planar control polygon that turns left gives a curve that turns left, and a control polygon that winds to the right in space gives a curve that does. The same holds for Bézier curves on [0, 1] and for rational B-spline curves with positive weights, with the projected control points.", "quantifier": "all sorted knot vectors and degrees, all control points, all increasing parameters of the domain, all d", "why_tests_cant": "total positivity is about all minors of all collocation matrices; a test sees single curves and single triples of parameters, and a wrong weight of the right sum can keep the points near the curve", "anchors": ["src/knot.rs:bspline_basis", "src/curve/bspline.rs:get_point", "src/curve/bezier.rs:get_point"]}
{"id": "C145", "title": "Polylines along a rational curve are no longer than its projected control polygon", "statement": "A polyline through points of a rational B-spline curve with positive weights at increasing parameters of its domain is no longer than the polygon of the projected control points, in every measure of differences that is non-negative, subadditive and homogeneous: the length in space, the variation of a coordinate, and so on. The same holds for rational Bézier curves on [0, 1]. This is the rational counterpart of C117.", "quantifier": "all valid curves of any degree with positive weights, all increasing lists of parameters, all such measures", "why_tests_cant": "a bound on the length of all polylines inscribed in all rational curves; a test compares single polylines", "anchors": ["src/knot.rs:bspline_basis", "src/curve/bspline.rs:get_point", "src/curve/bezier.rs:get_point"]}
{"id": "C146", "title": "Knot insertion, splitting and conversion to Bézier curves cut corners", "statement": "Inside the domain, add_knot replaces the control points by points each between two consecutive old ones, the last staying in place; split and to_piecewise_bezier return pieces whose control points, one after the other, arise from those of the curve by repeating this. Hence the control polygons of the pieces are together no longer than that of the curve in any measure as in C117, and if every d+1 control points of the curve taken in order have a non-negative orientation, so have those of every piece.", "quantifier": "all valid curves, all parameters inside the domain, all d", "why_tests_cant": "that the pieces reproduce the curve does not bound their control polygons; a test sees single splits", "anchors": ["src/curve/bspline.rs:add_knot", "src/curve/bspline.rs:split", "src/curve/bspline.rs:to_piecewise_bezier"]}
{"id": "C147", "title": "Planar faces bounded by curved edges become fans that tile them", "statement": "Around each edge of a loop take a polygon: the ends of a line, the vertices of a polyline, the control points of a B-spline curve (projected ones with positive weights for a rational curve), for an arc its ends and the meets of tangents less than half a turn apart; reversed if the edge runs downward. If the corners of all these polygons, taken in order, never turn right in the plane of the face, then neither do three points of the sampled polygon, whatever the tolerance and the random numbers. Plane::trim then returns nothing if no turn exceeds the tolerance, and otherwise the fan around the mean of the samples: one triangle for each sampled side, none turned over, none of zero area unless its side projects to a point, their areas adding up to that of the polygon, all of them left of every side, and off the lines through two vertices every point is in as many of them as the polygon winds around it, which is once or never.", "quantifier": "all loops of such edges, all tolerances, all random numbers, all samples that are produced", "why_tests_cant": "the sample points depend on random numbers and tolerances; a test meshes single faces", "anchors": ["src/curve.rs:get_points", "src/surface.rs:to_polygon", "src/surface/plane.rs:trim", "src/utils.rs:parameter_division", "src/utils/polygon.rs:compute_vertex_convexity"]}
{"id": "C148", "title": "Curved faces and holes smaller than the sampling tolerance vanish", "statement": "parameter_division replaces an edge by its chord if the middle fifth of the edge is off the chord by less than the tolerance of the edge, in particular if the edge has a diameter below it; for STEP files the tolerance is the absolute length 0.01. A loop of such edges is the polygon of their ends. If the edges join the same two points, for example the two halves of a circle, the polygon has two points: a planar face bounded by it is read but has no triangle and no vertex, and as a hole it does not count, the merged polygon winding around each point as if it were not there. In general a planar face with one loop has no mesh if and only if no corner of the sampled loop turns left by more than 1e-7.", "quantifier": "all curves, loops, planes and random numbers; for STEP all files whose face is bounded by arcs of diameter below 0.01 between two points", "why_tests_cant": "whether an edge is divided depends on random numbers and on its size compared with a constant; a test uses single sizes", "anchors": ["src/utils.rs:parameter_division", "src/model/step_reader.rs:175-187", "src/surface.rs:to_polygon", "src/surface/plane.rs:trim", "src/utils/polygon.rs:merge_polygons"]}
{"id": "C149", "title": "Vertices on the sides of a planar face do no harm unless they blunt a corner", "statement": "Take the corners of a simple polygon, counter-clockwise in the plane, no three of them within tolerance of a line, and put any number of further vertices on its sides, so that at each corner the triangle of the corner and the vertices next to it still has more than the tolerance as its doubled area. Plane::trim then returns a mesh that tiles the polygon of the corners: all triangles counter-clockwise, areas adding up, and off the lines through two vertices each point in exactly one triangle if it is inside and in none otherwise. With a reflex corner there are two triangles less than corners and the vertices on the sides are not used; without there is one triangle for each vertex. If the vertices next to a corner are too close to it, the corner is dropped, they are dropped too, and what is meshed is the polygon of the other corners.", "quantifier": "all polygons, all numbers and positions of vertices on the sides, any ordered field", "why_tests_cant": "the number of vertices on a side is not bounded and whether they are dropped depends on exact areas; tests use polygons without such vertices", "anchors": ["src/utils/polygon.rs:compute_vertex_convexity", "src/utils/polygon.rs:trianglate_polygon", "src/surface/plane.rs:trim"]}
{"id": "C150", "title": "Meshes of Bezier patches deviate from the patch by a bound that falls with the square of the divisions", "statement": "Let A, B, C bound the lengths of the second differences of the control points of a Bezier patch of degrees m and n, along the first index, across, and along the second index, and mesh it over a rectangle of parameters in the unit square divided a by b, so that a cell has sides g and h. Then each point of each triangle is within (m(m-1) A g^2 + 2 m n B g h + n(n-1) C h^2)/8 of the point of the patch whose parameters are mixed with the same weights, and each point of the patch is within that distance of a triangle. So the mesh converges to the patch, and the bound is attained by a parabolic trough. The OBJ file written by examples/bezier.rs has this property for each patch of the file it reads. A Bezier curve of degree n is within n(n-1) A h^2/8 of its chord over an interval of length h.", "quantifier": "all control nets of any degrees, all divisions, all points of the triangles and of the patch", "why_tests_cant": "the deviation is a maximum over a continuum of points, for all patches; a test samples some points of one patch", "anchors": ["src/surface/bezier.rs:get_point", "src/face.rs:get_triangle_mesh", "src/mesh.rs:create_triangles", "src/utils.rs:uniform_divide", "examples/bezier.rs:main"]}
{"id": "C151", "title": "Meshes of Bezier patches computed in binary64 stay within the deviation bound and a few roundings", "statement": "Mesh a Bezier patch with finite control points of at most M in absolute value over the unit square, divided a by b with a, b at most 2^20, with all computations in binary64. The mesh has 2ab triangles with finite corners. Every point of every triangle is within the bound of C150 (for cells of sides 1/a + a 2^-48 and 1/b + b 2^-48) plus K (2^-48 M + 2^-1072) of the exact patch, where K is the number of control points, and every point of the exact patch over the whole unit square is within that distance of a triangle.", "quantifier": "all nets of finite binary64 control points with at most 2^40 points, all divisions up to 2^20, all points of the triangles and of the patch", "why_tests_cant": "the statement is about a continuum of points and about every rounding of every operation; a test samples both", "anchors": ["src/surface/bezier.rs:get_point", "src/face.rs:get_triangle_mesh", "src/mesh.rs:create_triangles", "src/utils.rs:uniform_divide"]}
{"id": "C152", "title": "The number of sample points of a curve grows with the inverse square root of the tolerance", "statement": "If a curve bows out from its chords by at most D w^2 / 8 over parameter intervals of length w, sampling a range of length W ends and the number N of points satisfies (N - 1)^2 <= max(1, D W^2 / (2 tol)), whatever random ratios are drawn. Bezier curves with n + 1 control points satisfy this over the unit interval with D = n (n - 1) A, A a bound of the second differences of the control points. Clamped B-spline curves of degree p >= 2 whose inner knots have at most multiplicity p - 1 satisfy it over their whole range, with D a bound of the control points of the second derivative. Circles satisfy it with D the radius. Conversely, for arcs of at most half a turn of a circle of radius r, 25 pi^2 tol (N - 1)^2 >= 12 r W^2.", "quantifier": "all curves with that property, all ranges, tolerances and draws, all Bezier curves, all circles with orthonormal frames", "why_tests_cant": "the count must hold for every random draw and every tolerance, and the lower bound excludes every shorter list", "anchors": ["src/utils.rs:parameter_division", "src/curve/bezier.rs:get_point", "src/curve/bspline.rs:get_point", "src/curve/circle.rs:get_point"]}
{"id": "C153", "title": "Bezier curves and their control polygons are close in both directions", "statement": "Take a Bezier curve of degree n whose control points have second differences of at most A, a parameter u in the unit interval and n u = k + r with r in the unit interval. The point of the curve at u is within A (n u (1 - u) - r (1 - r)) / 2, hence within n A / 8, of the point of the control polygon at fraction r of leg k. Every point of the polygon and every point of the curve occur, so this bounds the distance both ways. The first bound is attained by every curve whose second differences are all equal. In binary64 the computed point is within n A / 8 of the polygon up to the rounding error of C92.", "quantifier": "all Bezier curves of degree 1 or more, all parameters in the unit interval, all legs", "why_tests_cant": "both sets are continua, and the bound is about all degrees and all control points", "anchors": ["src/curve/bezier.rs:get_point", "src/basis.rs:bernstein"]}
{"id": "C154", "title": "Meshes of planes, cylinders, sweeps, spins and umbrellas are close to the surface in both directions", "statement": "Suppose that over a rectangle of parameters the curves of a surface along u and v bow out from their chords by at most D w^2 / 8 and E w^2 / 8, and that its mixed differences are at most C times the area of the cell. Then the mesh of the patch with a by b divisions is made, every point of every triangle is within (D g^2 + 2 C g h + E h^2) / 8 of the point of the surface with the same weights of the parameters, and every point of the surface is within that of a triangle; g and h are the sides of the cells. Planes satisfy this with 0, 0, 0; cylinders with 0, 0, radius; sweeps with the bounds of path and section and C = 0; spins with the bound of the section, its speed and the largest distance from the axis; umbrellas with radius/pi, 2 radius/pi, radius. So the umbrella of the test is meshed to within 1/400.", "quantifier": "all such surfaces, all rectangles of parameters, all divisions with at most 2^32 vertices, all points of the triangles and of the surface", "why_tests_cant": "both sets are continua, and the bound is about all divisions", "anchors": ["src/face.rs:get_triangle_mesh", "src/surface/umbrella.rs:get_point", "src/surface/spin.rs:get_point", "src/surface/sweep.rs:get_point", "src/surface/cylinder.rs:get_point"]}
{"id": "C155", "title": "Meshes of B-spline surfaces are close to the surface in both directions", "statement": "Take a clamped B-spline surface of degrees p, q of at least 2 whose inner knots have multiplicities of at most p - 1 and q - 1, and bounds D, C, E of the lengths of the control points of its second derivatives by u, by u and v, and by v. The mesh of its whole domain with a by b divisions is made. Every point of every triangle is within (D g^2 + 2 C g h + E h^2) / 8 of the point of the surface with the same weights of the parameters, and every point of the surface is within that of a triangle; g and h are the sides of the cells. All surfaces made by uniform_clamped with degrees from 2 to 255 are of this kind.", "quantifier": "all clamped B-spline surfaces of degrees 2 or more with such knots, all divisions with at most 2^32 vertices, all points of the triangles and of the surface", "why_tests_cant": "both sets are continua, and the bound is about all degrees, knots and control points", "anchors": ["src/face.rs:get_triangle_mesh", "src/surface/bspline.rs:get_point", "src/surface/bspline.rs:get_normals", "src/surface/bspline.rs:uniform_clamped"]}
{"id": "C156", "title": "A curve or surface determines its control points", "statement": "Two B-spline curves with the same degree and knots, such that every basis function is nonzero on some span of positive length of the domain, have the same control points if they agree on the domain; likewise two B-spline surfaces. Two Bézier curves of degree n that agree at n + 1 different parameters have the same control points. So knots inserted into a clamped curve one after the other by add_knot always succeed between its ends, and give the same curve, control point by control point, in whatever order they are inserted, as long as no knot ends up more than degree + 1 times.", "quantifier": "all B-spline curves and surfaces with such knots, all Bézier curves, all lists of inserted knots and all orders", "why_tests_cant": "the agreement is over a continuum, and the lists of knots and their orders are unbounded", "anchors": ["src/curve/bspline.rs:add_knot", "src/curve/bspline.rs:get_point", "src/curve/bezier.rs:get_point", "src/surface/bspline.rs:get_point"]}
{"id": "C157", "title": "Projection onto Bezier curves: when the nearest point is found, and when the furthest", "statement": "Take a Bezier curve of degree n >= 2 that advances in some direction at least at speed s, a point within R of its control points, and bounds V, B, T of its first three derivatives with B R < s^2 and T R + 3 B V <= 2 n (s^2 - B R). Then the nearest point of the curve is unique, and project returns a parameter within 1e-7 / (s^2 - B R) or 2^-1023 of it, or one whose point is within the square root of 1e-7 of the given point. In general find_nearest_parameter squares the error with each trial near a foot point where the squared distance is convex. Without such conditions project may return the furthest point of the curve: on the curve with control points 0, 1, 3/2 on a line it returns 1 for all points more than 4 before the start, also in binary64. Where the first two of three control points coincide, the points of the curve with parameter t, 128 t^2 < 1, are all given the parameter 0.", "quantifier": "all Bezier curves of degree 2 or more and all points meeting the conditions; all points of a ray; all quadratic curves with a double start", "why_tests_cant": "the conditions and conclusions are about all real parameters, and the iteration is compared with a minimum over a continuum", "anchors": ["src/utils.rs:find_nearest_parameter", "src/curve/bezier.rs:project", "src/curve/bezier.rs:derivative"]}
{"id": "C158", "title": "Control polygons converge to the curve when knots are inserted", "statement": "For a clamped B-spline curve of degree p >= 2 whose inner knots have multiplicity at most p - 1: inserting a knot and taking the derivative commute exactly; inserting any list of knots strictly between the ends (keeping those multiplicities) only cuts corners of the control polygon of the second derivative; and every point of the refined control polygon is within ((p + 1) h)^2 D of the point of the original curve at the matching mean of knots, where h is the longest span left and D bounds the control points of the original second derivative. So for every tolerance there is a span length below which every refinement's polygon is that close to the curve.", "quantifier": "All clamped curves over the reals, all degrees, all knot lists to insert, all seminorms, all points of the polygon.", "why_tests_cant": "The bound concerns all refinements at once, however long; a test sees a few curves and a few knots, and a wrong weight in add_knot or derivative can move the polygon only slightly.", "anchors": ["src/curve/bspline.rs:add_knot", "src/curve/bspline.rs:derivative", "src/curve/bspline.rs:get_point"]}
{"id": "C159", "title": "Projection onto surfaces: exact on plane patches, quadratic near a foot point", "statement": "On a plane patch (control points an affine image of the knot means, any degrees and knots with repeated ends) project_points returns the nearest sample if a stopping condition holds there, and otherwise the foot of the perpendicular with its two parameters clamped one by one; if the foot lies on the patch the point returned is as near as any other to within the tolerance; beyond an oblique corner it need not be the nearest point of the patch. On every patch, from a start within rho of a foot point where the second derivatives of the distance are at least m and the gradient is linear up to L times the squared distance with 2 L rho <= m, the iteration ends within the tolerance of the point, or with parameters within 4 tol/m of the foot, or with the start error halved 2^20 - 1 times. For bilinear patches of little twist these conditions hold from the nearest sample for every point of the patch: project_points inverts get_point.", "quantifier": "for all plane and bilinear patches of all degrees and knots, all points, all parameters; for the local theorem all surfaces and all starts", "why_tests_cant": "tests project a few points of one surface; that the clamped iteration is right for every point of a whole class of patches, and how fast it converges, is a statement about all of them", "anchors": ["src/surface/bspline.rs:project_points"]}
{"id": "C160", "title": "The area of the triangle mesh of a surface patch converges to the area of the surface", "statement": "If the surface has tangents no longer than L that change by at most M times the distance of the parameters, the total area of the triangles of get_triangle_mesh, divided a by b, differs from the integral of |su x sv| by at most du dv 2 L M (du/a + dv/b), hence converges; on a plane the two are equal; on a cylinder the total area is that of the prism over the chords, never more than the area of the cylinder and less by at most the factor 1 - dv^2/(24 b^2); for a Bezier patch L and M follow from the first and second differences of the control points.", "quantifier": "for all surfaces with Lipschitz tangents, all ranges, all divisions up to the limit of the vertex indices; all planes, cylinders and Bezier patches", "why_tests_cant": "tests can compare the area of one mesh of one surface with a number; that the error goes to zero for all surfaces at a known rate is a statement about limits (and false for triangulations that are not grids, as the lantern of Schwarz shows)", "anchors": ["src/face.rs:get_triangle_mesh", "src/surface/plane.rs:get_point", "src/surface/cylinder.rs:get_point", "src/surface/bezier.rs:get_point"]}
{"id": "C161", "title": "Mesh triangles turn the way the surface normals point, and the normals stored in the mesh agree with them", "statement": "If the surface has tangents su, sv no longer than L that change by at most M times the distance of the parameters and |su x sv| >= k > 0, then for divisions with 2 L M (du/a + dv/b) <= d k, d < 1, every triangle of get_triangle_mesh is non-degenerate and its facet normal, by its corner order, encloses with su x sv anywhere in its cell an acute angle of sine at most d; where get_normals returns the normalized su x sv this holds for the three normals stored at the corners of the triangle. For clamped B-spline surfaces of degrees 2 or more the surfaces of derivative_u and derivative_v are these tangents, on the knots too, L and M are bounds of the control points of the first and second derivatives, and get_normals returns their normalized cross product.", "quantifier": "for all surfaces with Lipschitz tangents and regular parameters, all ranges, all divisions fine enough; all valid clamped B-spline surfaces of degrees 2 or more with inner knots of multiplicity below the degree; all Bezier patches", "why_tests_cant": "tests can look at the orientation of the triangles of one mesh; that winding and stored normals agree at all cells of all surfaces needs the mean value theorem and a bound between the facet and the normal at each corner", "anchors": ["src/face.rs:get_triangle_mesh", "src/mesh.rs:create_triangles", "src/surface/bspline.rs:get_normals", "src/surface/bspline.rs:derivative_u"]}
{"id": "C162", "title": "Meshes close up where sides of patches coincide or collapse", "statement": "The boundary of the mesh of a patch is the way around its four sides. The mesh of a full turn of a cylinder is bounded by its two rims only; the mesh of a full turn of a spin surface is watertight (every directed side of a triangle is met by as many opposite ones) if the section is closed or ends on the axis at both ends; a set of Bezier patches whose side control polygons match in pairs of opposite sense, or collapse to points, gives meshes that are watertight together when divided equally. A watertight mesh encloses the same volume seen from every point and its facets balance. In binary64 a full turn does not close: the first and the last vertex of a circle of a unit cylinder differ whatever the divisions.", "quantifier": "for all cylinders, all spin surfaces over a full turn from any angle, all sets of Bezier patches with matching sides, all divisions up to the limit of the vertex indices", "why_tests_cant": "tests can count the open edges of one mesh; that all of them cancel for all divisions and all sets of patches is a statement about boundary chains", "anchors": ["src/face.rs:get_triangle_mesh", "src/mesh.rs:create_triangles", "src/surface/spin.rs:get_point", "src/surface/cylinder.rs:get_point", "src/surface/bezier.rs:get_point"]}
{"id": "C163", "title": "The volume of meshes converges to the flux integral of the surface", "statement": "For a surface whose tangents are no longer than L, M-Lipschitz, and which stays within R of a point o, the signed volume of the cones from o over the triangles of the mesh differs from the integral of (S - o) . (Su x Sv) / 3 by at most (2 L M R + L^3) / 3 (g + h) times the area of the parameter rectangle, where g and h are the steps of the grid; so it converges as the divisions grow. For Bezier patches the bounds follow from the control points.", "quantifier": "for all surfaces with Lipschitz tangents, all rectangles of parameters, all divisions up to the limit of the vertex indices, all points o; for Bezier patches of all degrees", "why_tests_cant": "tests can compare the volume of one mesh with one number; a rate of convergence for all surfaces and divisions cannot be sampled", "anchors": ["src/face.rs:get_triangle_mesh", "src/mesh.rs:create_triangles", "src/surface/bezier.rs:get_point"]}
{"id": "C164", "title": "Area and volume of the meshes of turned surfaces follow Pappus and Guldin", "statement": "A spin surface has the tangents got by turning the derivative of its section and by turning the section itself. Its area is the angle times the integral along the section of the length of c' x (a x (c - o)), which is distance from the axis times arc length when the section lies in a plane with the axis; the cone over it has the volume got from an integral along the section. The area and the volume of the meshes differ from these by explicit bounds. For a full turn with a closed section, or one that ends on the axis, the mesh is watertight and the volume bound holds from every point. Tori have the area 4 pi^2 r d and the volume 2 pi^2 r^2 d; spheres the area 4 pi r^2 and the volume 4/3 pi r^3, positive (facets outwards) if the section begins at the end of the axis and negative (inside out) if it begins at the other pole.", "quantifier": "for all spin surfaces with sections whose derivative is Lipschitz, all angles and divisions up to the limit of the vertex indices; all tori that do not meet their axis, all spheres in both senses", "why_tests_cant": "tests can mesh a few spheres; that every mesh of every turned surface has the right area, volume and sense needs integrals and bounds over all sections", "anchors": ["src/surface/spin.rs:get_point", "src/face.rs:get_triangle_mesh", "src/mesh.rs:create_triangles", "src/curve/circle.rs:get_point"]}
{"id": "C165", "title": "Area and volume of the meshes of sweeps and of the umbrella", "statement": "A sweep has the tangents of its path and of its section, and the area and the volume of its meshes differ from the double integrals over both curves by explicit bounds. Along a straight path the area of the mesh is exactly that of the strips over the chords of the section, whatever the divisions. The umbrella is a cycloid turned about the axis z; the area of its meshes converges to 32/3 pi rho^2 and the volume under them to (pi^2/2 - 8/3) pi rho^3, where pi rho is its radius.", "quantifier": "for all sweeps of curves with Lipschitz derivatives, all straight paths with any section, all umbrellas, all divisions up to the limit of the vertex indices", "why_tests_cant": "tests write one mesh to a file; area and volume for all curves and all divisions need integrals", "anchors": ["src/surface/sweep.rs:get_point", "src/surface/umbrella.rs:get_point", "src/face.rs:get_triangle_mesh", "src/mesh.rs:create_triangles"]}
{"id": "C166", "title": "Bezier patches with matching sides enclose a volume, and their meshes converge to it", "statement": "For a set of Bezier patches whose sides match in pairs or collapse to points, the sum of the volumes of the cones over the patches does not depend on the apex. The meshes of the patches with the same division n in both directions are watertight together, and the volume they enclose, measured from any point, differs from that sum by at most 16 k^3 Q^3 / n for each patch, where k bounds the degrees and Q the distance of the control points from some point.", "quantifier": "for all sets of Bezier patches with matching sides, all degrees and control points, all apexes, all divisions up to the limit of the vertex indices", "why_tests_cant": "tests write single meshes to files; that the volume is well defined and the rate of convergence are about all divisions and all apexes", "anchors": ["src/surface/bezier.rs:get_point", "src/face.rs:get_triangle_mesh", "src/mesh.rs:create_triangles"]}
{"id": "C167", "title": "Area and volume of meshes of Bezier patches computed in binary64", "statement": "The mesh of a Bezier patch computed in binary64 has finite vertices within an explicit distance d of the points of the exact patch at the exact divisions. Its area differs from the area of the exact patch, and the volume of the cones over its triangles from that of the cone over the exact patch, by the errors of C160 and C163 and a term proportional to d and to the number of divisions. For sets of patches with matching sides this bounds the error of the volume they enclose.", "quantifier": "for all Bezier patches with finite control points up to 2^1022, up to 2^40 control points, all divisions up to 2^20 within the limit of the vertex indices", "why_tests_cant": "tests write one mesh to a file; bounds for all patches and all divisions, with every rounding counted, need a proof", "anchors": ["src/surface/bezier.rs:get_point", "src/utils.rs:uniform_divide", "src/face.rs:get_triangle_mesh", "src/mesh.rs:create_triangles"]}
{"id": "C168", "title": "Solids bounded by surfaces of any kind: meshes close up and their volume converges", "statement": "Patches of surfaces of any kind with Lipschitz tangents, each with its own divisions, whose sides match in pairs as curves with the same number of divisions, or collapse to points: the meshes together are watertight, the volume of the cones over the surfaces does not depend on the apex, and the volume enclosed by the meshes differs from it by at most the sum of the bounds of C163. A can made of a cylinder and two spun radii is an instance: its meshes are inside out and enclose pi r^2 h in the limit.", "quantifier": "for all lists of patches with matching sides, all kinds of surfaces with Lipschitz tangents, all divisions up to the limit of the vertex indices, all apexes; all cylinders and heights", "why_tests_cant": "tests write the mesh of one patch at a time; whether several meshes fit together and what they enclose is never computed", "anchors": ["src/face.rs:get_triangle_mesh", "src/mesh.rs:create_triangles", "src/surface/cylinder.rs:get_point", "src/surface/spin.rs:get_point"]}
{"id": "C169", "title": "Meshes of Bezier patches with sides that match along the same parameter are watertight in binary64", "statement": "A set of Bezier patches with finite binary64 control points such that the control polygons of the sides passed forwards (v = 0 and u = 1) are, up to order, those of the sides passed backwards (v = 1 and u = 0): the meshes over the unit square with the same divisions, computed in binary64, are together exactly watertight, so the volume they enclose does not depend on the apex. Where a side runs against its partner, or all its control points coincide, this is false: there are patches whose meshes crack there.", "quantifier": "for all lists of nets of finite binary64 points with such sides, all divisions up to the limit of the vertex indices", "why_tests_cant": "no test compares vertices of neighbouring patches; cracks of one unit in the last place cannot be seen in pictures, and depend on the direction of the parameters", "anchors": ["src/face.rs:get_triangle_mesh", "src/surface/bezier.rs:get_point", "src/basis.rs:bernstein", "src/mesh.rs:create_triangles"]}
{"id": "C170", "title": "Solids bounded by B-spline surfaces: meshes close up and their volume converges", "statement": "A clamped B-spline surface of degrees 2 or more whose inner knots have multiplicity at most the degree minus 1 is, along its four sides, the B-spline curve of the control points there. So a set of such surfaces whose sides have the same control points and knots in pairs, in either direction and with the same number of divisions, or collapse to points, has watertight meshes, and the volume these enclose is within the sum of the bounds of C163 of the volume of the cones over the surfaces, from whatever points both are measured.", "quantifier": "for all lists of such B-spline surfaces with matching sides, all divisions up to the limit of the vertex indices, all apexes", "why_tests_cant": "tests mesh one B-spline surface at a time; whether neighbouring meshes fit together and what they enclose is never computed", "anchors": ["src/surface/bspline.rs:get_point", "src/surface/bspline.rs:get_normals", "src/face.rs:get_triangle_mesh", "src/mesh.rs:create_triangles"]}
{"id": "C171", "title": "Meshes of rational patches with matching homogeneous sides are watertight in binary64", "statement": "For a set of rational Bezier patches whose weights are not too small for their numbers of control points, such that the homogeneous sides passed forwards around the patches are, together, the sides passed backwards, the meshes computed in binary64 with equal divisions have finite vertices and are together exactly watertight, and the volume they enclose is the same from every point. If the sides have the same points but proportional weights instead, there may be cracks.", "quantifier": "for all lists of nets of homogeneous binary64 control points with bounded coordinates and weights bounded from below, all divisions up to the limit of the vertex indices", "why_tests_cant": "the division by the weight rounds once more; tests with a tolerance do not see whether the vertices of two patches agree bit by bit", "anchors": ["src/surface/bezier.rs:get_point", "src/face.rs:get_triangle_mesh", "src/mesh.rs:create_triangles", "src/basis.rs:bernstein"]}
{"id": "C172", "title": "Rational patches with matching homogeneous sides bound solids whose area and volume the meshes approach", "statement": "The quotient of a vector surface by a positive weight surface, both with bounded and Lipschitz partial derivatives, has such derivatives itself, given by the quotient rule with explicit bounds. Hence the area of the mesh of a rational Bezier patch differs from that of the patch by at most an explicit constant times the sum of the reciprocals of the divisions, and for rational patches whose homogeneous sides match in pairs of opposite direction or collapse to points, the meshes are together watertight and the volume they enclose is near that enclosed by the patches, from any points of reference.", "quantifier": "for all lists of nets of homogeneous real control points with bounded coordinates and weights bounded above and from below by a positive number, all divisions up to the limit of the vertex indices", "why_tests_cant": "the limit concerns all divisions at once, and the constants depend on weights without bound", "anchors": ["src/surface/bezier.rs:get_point", "src/face.rs:get_triangle_mesh", "src/mesh.rs:create_triangles", "src/basis.rs:bernstein"]}
{"id": "C173", "title": "Over the reals it is enough for sides of rational patches to match up to factors", "statement": "Rational Bezier patches whose homogeneous sides match in pairs of opposite direction up to a factor for every pair, or collapse to points, have watertight meshes over the reals, and the volume they enclose is near that enclosed by the patches. Sides which match exactly are a special case. In binary64 the factors open cracks (C171).", "quantifier": "for all lists of nets of homogeneous real control points with bounded coordinates and weights bounded above and from below by a positive number, all factors other than zero, all divisions up to the limit of the vertex indices", "why_tests_cant": "tests in floating point cannot tell the rounding of the quotients from a fault of the formulas", "anchors": ["src/surface/bezier.rs:get_point", "src/face.rs:get_triangle_mesh", "src/mesh.rs:create_triangles"]}
{"id": "C174", "title": "Rational B-spline surfaces with matching sides bound solids whose area and volume the meshes approach", "statement": "A rational B-spline surface with weights bounded from below, whose numerator and denominator are B-spline surfaces with bounded first and second slopes, has bounded and Lipschitz tangents. Hence the area of its mesh differs from that of the surface by at most an explicit constant times the sum of the steps, and for such surfaces whose sides have, weights and knots included, the same control points in pairs of opposite direction, or collapse to points, the meshes are together watertight and the volume they enclose is near that enclosed by the surfaces, from any points of reference.", "quantifier": "for all lists of clamped rational B-spline surfaces over the reals with smooth knots, all divisions up to the limit of the vertex indices", "why_tests_cant": "the limit concerns all divisions at once, and the constants depend on weights and knots without bound", "anchors": ["src/surface/bspline.rs:get_point", "src/face.rs:get_triangle_mesh", "src/mesh.rs:create_triangles", "src/knot.rs:bspline_basis"]}
{"id": "C175", "title": "Area and volume of meshes computed in binary64, for patches of any kind and rational patches", "statement": "If the points of a patch over the unit square computed in binary64 are off by at most a given error in every coordinate, and the exact patch has bounded and Lipschitz tangents, then the area of the mesh computed in binary64 and the volume over it differ from those of the exact patch by at most explicit bounds in the divisions and the error, and so does the sum of the volumes of several patches. Rational Bezier patches whose weights are not too small for their numbers of control points are an instance; if their homogeneous sides match, the meshes are also watertight and the bound holds from every point of reference.", "quantifier": "for all surfaces in binary64 with a bound of the error of their points, all nets of homogeneous binary64 control points with bounded coordinates and weights bounded from below, all divisions up to the limit of the vertex indices", "why_tests_cant": "rounding errors of all vertices and the error of the approximation add up differently for all divisions; tests compare with a tolerance found by trial", "anchors": ["src/surface/bezier.rs:get_point", "src/face.rs:get_triangle_mesh", "src/mesh.rs:create_triangles", "src/basis.rs:bernstein"]}
{"id": "C176", "title": "Area and volume of meshes of rational B-spline surfaces computed in binary64", "statement": "The mesh of a rational B-spline surface over the unit square computed in binary64, with knots clamped at the end, bounded homogeneous coordinates and weights bounded from below, has an area that differs from that of the exact surface by at most an explicit bound in the divisions, the bounds of the tangents of numerator and denominator, and the rounding error of the points; likewise the volume of the cones over its triangles from the origin, and the sum of such volumes for several surfaces.", "quantifier": "for all rational B-spline surfaces in binary64 over the unit square whose exact counterparts have smooth numerator and denominator, all divisions up to the limit of the vertex indices", "why_tests_cant": "rounding errors of the basis, the weighted sum and the division add up differently for all knots, degrees and divisions; tests compare with a tolerance found by trial", "anchors": ["src/surface/bspline.rs:get_point", "src/face.rs:get_triangle_mesh", "src/mesh.rs:create_triangles", "src/knot.rs:bspline_basis"]}
