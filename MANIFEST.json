{
 "claims": [
  {
   "property": "C01",
   "status": "proved",
   "theorems": [
    "Geom3d.C01_bernstein_eq",
    "Geom3d.C01_bernstein_empty",
    "Geom3d.C01_bernstein_total"
   ],
   "note": "Exact (any commutative ring); plus law-free totality, which covers f64."
  },
  {
   "property": "C02",
   "status": "proved",
   "theorems": [
    "Geom3d.C02_sum_eq_one",
    "Geom3d.C02_nonneg",
    "Geom3d.C02_ends"
   ],
   "note": "Exact."
  },
  {
   "property": "C03",
   "status": "proved",
   "theorems": [
    "Geom3d.C03_bsplineBasis_coxDeBoor"
   ],
   "note": "Exact, over any linearly ordered field; hypothesis Resolved: ulps_eq separates distinct knots."
  },
  {
   "property": "C04",
   "status": "proved",
   "theorems": [
    "Geom3d.C04_convex",
    "Geom3d.C04_convex_right_end",
    "Geom3d.C04_range"
   ],
   "note": "Exact."
  },
  {
   "property": "C05",
   "status": "partial",
   "theorems": [
    "Geom3d.C05_above_partial",
    "Geom3d.C05_below_actual",
    "Geom3d.C05_below_false",
    "Geom3d.C05_below_panics"
   ],
   "note": "High side proved. The low side is false of the code (span_index returns multiplicity(0) instead of multiplicity(0)-1): C05_below_false gives a witness, C05_below_actual says what is computed instead, C05_below_panics shows an index panic."
  },
  {
   "property": "C06",
   "status": "proved",
   "theorems": [
    "Geom3d.C06_bezierKnot_bernstein"
   ],
   "note": "Exact."
  },
  {
   "property": "C07",
   "status": "proved",
   "theorems": [
    "Geom3d.C07_new",
    "Geom3d.C07_bezierKnot",
    "Geom3d.C07_uniformKnot_layout",
    "Geom3d.C07_uniformKnot_sorted",
    "Geom3d.C07_values_multiplicities",
    "Geom3d.C07_values_multiplicities_length",
    "Geom3d.C07_values_multiplicities_sorted"
   ],
   "note": "Layout law-free, sortedness exact."
  },
  {
   "property": "C08",
   "status": "proved",
   "theorems": [
    "Geom3d.C08_addKnot",
    "Geom3d.C08_addKnots"
   ],
   "note": "Any linear order."
  },
  {
   "property": "C09",
   "status": "proved",
   "theorems": [
    "Geom3d.C09_spanIndex",
    "Geom3d.C09_constant_panics"
   ],
   "note": "Order plus Resolved."
  },
  {
   "property": "C10",
   "status": "proved",
   "theorems": [
    "Geom3d.C10_normalize",
    "Geom3d.C10_shrink",
    "Geom3d.C10_spans",
    "Geom3d.C10_range"
   ],
   "note": "normalize exact; shrink, spans law-free; range any linear order."
  },
  {
   "property": "C100",
   "status": "proved",
   "theorems": [
    "Geom3d.C100_error",
    "Geom3d.C100_end",
    "Geom3d.C100_start_not_exact"
   ],
   "note": "Binary64 with all roundings, against the exact curve; the start point is only approximate (C100_start_not_exact)."
  },
  {
   "property": "C101",
   "status": "proved",
   "theorems": [
    "Geom3d.C101_mixed"
   ],
   "note": "Exact arithmetic."
  },
  {
   "property": "C102",
   "status": "proved",
   "theorems": [
    "Geom3d.C102_project",
    "Geom3d.C102_example",
    "Geom3d.C102_pole_panics"
   ],
   "note": "Exact arithmetic over the reals; C102_pole_panics is a binary64 witness for the failure at a pole."
  },
  {
   "property": "C103",
   "status": "proved",
   "theorems": [
    "Geom3d.C103_curve",
    "Geom3d.C103_surface",
    "Geom3d.C103_loop",
    "Geom3d.C103_face",
    "Geom3d.C103_trimmed",
    "Geom3d.C103_model",
    "Geom3d.C103_knot_surface"
   ],
   "note": "Law-free (any number type); the last clause in exact arithmetic."
  },
  {
   "property": "C104",
   "status": "proved",
   "theorems": [
    "Geom3d.C104_vertices",
    "Geom3d.C104_closed",
    "Geom3d.C104_empty",
    "Geom3d.C104_two_loops"
   ],
   "note": "Law-free."
  },
  {
   "property": "C105",
   "status": "proved",
   "theorems": [
    "Geom3d.C105_ignored",
    "Geom3d.C105_load",
    "Geom3d.C105_bezier",
    "Geom3d.C105_no_points",
    "Geom3d.C105_zero",
    "Geom3d.C105_order_unchecked",
    "Geom3d.C105_bspline"
   ],
   "note": "Law-free; number formatting abstracted by a round-trip hypothesis."
  },
  {
   "property": "C106",
   "status": "proved",
   "theorems": [
    "Geom3d.C106_bezier",
    "Geom3d.C106_bspline",
    "Geom3d.C106_bezier_corners",
    "Geom3d.C106_bspline_corner"
   ],
   "note": "Binary64 with all rounding."
  },
  {
   "property": "C107",
   "status": "proved",
   "theorems": [
    "Geom3d.C107_bezier_curve",
    "Geom3d.C107_bspline_curve",
    "Geom3d.C107_bezier_surface",
    "Geom3d.C107_bspline_surface",
    "Geom3d.C107_tiny_weight"
   ],
   "note": "Binary64 with all rounding."
  },
  {
   "property": "C108",
   "status": "proved",
   "theorems": [
    "Geom3d.C108_continuous",
    "Geom3d.C108_differentiable"
   ],
   "note": "Exact reals."
  },
  {
   "property": "C109",
   "status": "proved",
   "theorems": [
    "Geom3d.C109_line",
    "Geom3d.C109_circle",
    "Geom3d.C109_polyline",
    "Geom3d.C109_bezier",
    "Geom3d.C109_bezier_rational",
    "Geom3d.C109_lipschitz",
    "Geom3d.C109_depth",
    "Geom3d.C109_bspline",
    "Geom3d.C109_bspline_rational",
    "Geom3d.C109_get_points",
    "Geom3d.C109_polygon",
    "Geom3d.C109_loops"
   ],
   "note": "Exact reals; the counterpart of the non-termination at jumps (C98)."
  },
  {
   "property": "C11",
   "status": "proved",
   "theorems": [
    "Geom3d.C11_start",
    "Geom3d.C11_end",
    "Geom3d.C11_convex",
    "Geom3d.C11_bounds",
    "Geom3d.C11_affine"
   ],
   "note": "Exact, any point type that is a module (V3, V4, scalars)."
  },
  {
   "property": "C110",
   "status": "proved",
   "theorems": [
    "Geom3d.C110_bezier",
    "Geom3d.C110_bezier_derivative_differences",
    "Geom3d.C110_bezier_derivative",
    "Geom3d.C110_bspline",
    "Geom3d.C110_bspline_derivative_differences",
    "Geom3d.C110_bspline_derivative",
    "Geom3d.C110_add_knot",
    "Geom3d.C110_split",
    "Geom3d.C110_clamp",
    "Geom3d.C110_piecewise",
    "Geom3d.C110_bezier_surface",
    "Geom3d.C110_surface",
    "Geom3d.C110_derivative_u_differences",
    "Geom3d.C110_derivative_u",
    "Geom3d.C110_derivative_v_differences",
    "Geom3d.C110_derivative_v",
    "Geom3d.C110_coordinates",
    "Geom3d.C110_rational_bezier",
    "Geom3d.C110_rational_bspline",
    "Geom3d.C110_rational_surface",
    "Geom3d.C110_bezier_affine",
    "Geom3d.C110_bspline_affine",
    "Geom3d.C110_bezier_surface_affine",
    "Geom3d.C110_surface_affine",
    "Geom3d.C110_rational_bezier_affine",
    "Geom3d.C110_rational_bspline_affine",
    "Geom3d.C110_rational_surface_affine",
    "Geom3d.C110_example_float",
    "Geom3d.C110_example",
    "Geom3d.C110_example_outside"
   ],
   "note": "Law-free for linear maps; exact for affine maps. Outside the domain of an unclamped curve the affine part is false (C110_example_outside)."
  },
  {
   "property": "C111",
   "status": "proved",
   "theorems": [
    "Geom3d.C111_parameters",
    "Geom3d.C111_get_points",
    "Geom3d.C111_polygon",
    "Geom3d.C111_loops",
    "Geom3d.C111_plane",
    "Geom3d.C111_plane_trim",
    "Geom3d.C111_cylinder",
    "Geom3d.C111_cylinder_trim",
    "Geom3d.C111_line",
    "Geom3d.C111_circle",
    "Geom3d.C111_polyline",
    "Geom3d.C111_bezier",
    "Geom3d.C111_bspline",
    "Geom3d.C111_project_points",
    "Geom3d.C111_surface_trim",
    "Geom3d.C111_normals",
    "Geom3d.C111_patch",
    "Geom3d.C111_patches",
    "Geom3d.C111_surface_patch",
    "Geom3d.C111_spin_sweep",
    "Geom3d.C111_rational",
    "Geom3d.C111_example_motion",
    "Geom3d.C111_example"
   ],
   "note": "Over the reals. The trim of a B-spline surface asks that new points lie above the first knots, or that the motion is a pure rotation: below the first knot the weights do not add up to one. Swept surfaces carry the translation on the path only."
  },
  {
   "property": "C112",
   "status": "proved",
   "theorems": [
    "Geom3d.C112_bspline",
    "Geom3d.C112_monotone",
    "Geom3d.C112_bezier",
    "Geom3d.C112_rational",
    "Geom3d.C112_example"
   ],
   "note": "Variation diminishing, proved by inserting every parameter degree + 1 times."
  },
  {
   "property": "C113",
   "status": "proved",
   "theorems": [
    "Geom3d.C113_perp",
    "Geom3d.C113_convexity",
    "Geom3d.C113_convexity_decides",
    "Geom3d.C113_convexity_reverse",
    "Geom3d.C113_inside",
    "Geom3d.C113_inside_tol",
    "Geom3d.C113_segments",
    "Geom3d.C113_segments_symmetric",
    "Geom3d.C113_ccw",
    "Geom3d.C113_convexity_wrong",
    "Geom3d.C113_inside_wrong",
    "Geom3d.C113_segments_wrong",
    "Geom3d.C113_ccw_wrong"
   ],
   "note": "Binary64. Margins with proofs, exact symmetries of the rounded predicates, and a wrong answer of each predicate inside its margin."
  },
  {
   "property": "C114",
   "status": "proved",
   "theorems": [
    "Geom3d.C114_side",
    "Geom3d.C114_side_homogeneous",
    "Geom3d.C114_seam",
    "Geom3d.C114_seam_rational",
    "Geom3d.C114_mesh",
    "Geom3d.C114_bspline_end",
    "Geom3d.C114_bspline_crack",
    "Geom3d.C114_example"
   ],
   "note": "Binary64, no overflow assumption. Equality up to the sign of zeros, also at the level of meshes; the crack of B-spline surfaces at the start of a knot vector is a witness."
  },
  {
   "property": "C115",
   "status": "proved",
   "theorems": [
    "Geom3d.C115_stl",
    "Geom3d.C115_obj",
    "Geom3d.C115_bezier_any",
    "Geom3d.C115_bezier",
    "Geom3d.C115_bspline",
    "Geom3d.C115_convert",
    "Geom3d.C115_example"
   ],
   "note": "End to end: written patch file, loader, evaluation, mesh, decoded STL bytes and OBJ lines. Bezier for every number type; B-spline over the reals; the STEP converter relative to the premises of C103 and meshes that can be computed."
  },
  {
   "property": "C116",
   "status": "proved",
   "theorems": [
    "Geom3d.C116_bezier",
    "Geom3d.C116_bspline",
    "Geom3d.C116_bezier_surface",
    "Geom3d.C116_bspline_surface",
    "Geom3d.C116_bspline_any",
    "Geom3d.C116_rational_bezier",
    "Geom3d.C116_rational_bspline",
    "Geom3d.C116_rational_bezier_surface",
    "Geom3d.C116_rational_bspline_surface",
    "Geom3d.C116_derivative",
    "Geom3d.C116_normals",
    "Geom3d.C116_mesh",
    "Geom3d.C116_patch",
    "Geom3d.C116_example"
   ],
   "note": "Over an ordered field the mirrored knots are assumed to be resolved by the tolerance (automatic over the reals). Derivatives and normals over the reals; meshes for every number type."
  },
  {
   "property": "C117",
   "status": "proved",
   "theorems": [
    "Geom3d.C117_bspline",
    "Geom3d.C117_bezier",
    "Geom3d.C117_polyline",
    "Geom3d.C117_example"
   ],
   "note": "From the monotonicity of C112 applied to the sums of consecutive basis functions. Over any ordered field; the Euclidean length over the reals."
  },
  {
   "property": "C118",
   "status": "proved",
   "theorems": [
    "Geom3d.C118_division",
    "Geom3d.C118_points",
    "Geom3d.C118_loop",
    "Geom3d.C118_boundary",
    "Geom3d.C118_never",
    "Geom3d.C118_point_polyline",
    "Geom3d.C118_point_never",
    "Geom3d.C118_point_segment",
    "Geom3d.C118_example"
   ],
   "note": "The chord test compares a square root with the tolerance, which is false for infinities and NaN. For the polyline the quotient of two zero lengths is NaN."
  },
  {
   "property": "C119",
   "status": "proved",
   "theorems": [
    "Geom3d.C119_complete",
    "Geom3d.C119_ccw",
    "Geom3d.C119_disjoint",
    "Geom3d.C119_ear"
   ],
   "note": "The positive counterpart of C39, whose counterexamples have vertices within tolerance of straight. Proved from winding numbers: level of a polygon, cuts along diagonals, existence of ears, reflex vertices suffice for the ear test, clipping keeps the polygon simple."
  },
  {
   "property": "C12",
   "status": "proved",
   "theorems": [
    "Geom3d.C12_derivative",
    "Geom3d.C12_derivative_xyz"
   ],
   "note": "Over the reals, HasDerivAt for every linear functional / coordinate."
  },
  {
   "property": "C120",
   "status": "proved",
   "theorems": [
    "Geom3d.C120_complete",
    "Geom3d.C120_grid",
    "Geom3d.C120_large"
   ],
   "note": "The invariant of C119 is proved for any arithmetic whose tests decide as exact ones; C113 supplies that for binary64 with the margin. C120_grid has hypotheses about integers only, decidable for a given polygon."
  },
  {
   "property": "C121",
   "status": "proved",
   "theorems": [
    "Geom3d.C121_tiling",
    "Geom3d.C121_float",
    "Geom3d.C121_clockwise"
   ],
   "note": "Combines C119 for loops with reflex vertices and a fan around the centroid for convex ones; that a simple loop with left turns only is convex is proved by clipping ears. Loops with holes are covered by C53, C73 and C74 only."
  },
  {
   "property": "C122",
   "status": "proved",
   "theorems": [
    "Geom3d.C122_signed",
    "Geom3d.C122_no_gaps",
    "Geom3d.C122_tiling",
    "Geom3d.C122_clockwise",
    "Geom3d.C122_real",
    "Geom3d.C122_example"
   ],
   "note": "Crossing numbers along a vertical ray, summed over the directed edges of the mesh (C42). Conformity is a hypothesis on the result, checked on an example; without it the signed statement holds."
  },
  {
   "property": "C123",
   "status": "proved",
   "theorems": [
    "Geom3d.C123_ear",
    "Geom3d.C123_merge",
    "Geom3d.C123_face",
    "Geom3d.C123_example",
    "Geom3d.C123_hole_lost",
    "Geom3d.C123_hole_overlap"
   ],
   "note": "Faces with holes under the hypothesis that the number of triangles is complete, which is decidable on the result; witnesses show that it and the orientation can fail."
  },
  {
   "property": "C124",
   "status": "proved",
   "theorems": [
    "Geom3d.C124_pick_ok",
    "Geom3d.C124_best",
    "Geom3d.C124_factor_le",
    "Geom3d.C124_inner_first",
    "Geom3d.C124_stops",
    "Geom3d.C124_free",
    "Geom3d.C124_inner",
    "Geom3d.C124_pickMax"
   ],
   "note": "The selection is modelled in Model/Pick.lean; NaN factors are left to the contract PickOk. That the front edges starting at a node are tested only by their first node is as in the code."
  },
  {
   "property": "C125",
   "status": "proved",
   "theorems": [
    "Geom3d.C125_front",
    "Geom3d.C125_cylinder",
    "Geom3d.C125_bspline",
    "Geom3d.C125_example"
   ],
   "note": "Exact arithmetic; C126 has no such restriction but speaks of views of the vertices instead of parameters."
  },
  {
   "property": "C126",
   "status": "proved",
   "theorems": [
    "Geom3d.C126_covered",
    "Geom3d.C126_front",
    "Geom3d.C126_ear",
    "Geom3d.C126_plane",
    "Geom3d.C126_trimmed",
    "Geom3d.C126_patch",
    "Geom3d.C126_binary64",
    "Geom3d.C126_example",
    "Geom3d.C126_ear_example",
    "Geom3d.C126_patch_example"
   ],
   "note": "From the oriented boundaries (C40, C42, C43, C73, C75, C77), which hold without any law of arithmetic. Patches with at most 2^32 vertices."
  },
  {
   "property": "C127",
   "status": "proved",
   "theorems": [
    "Geom3d.C127_addKnots",
    "Geom3d.C127_evaluate",
    "Geom3d.C127_clamp",
    "Geom3d.C127_split",
    "Geom3d.C127_pieces",
    "Geom3d.C127_example"
   ],
   "note": "Binary64 with all its rounding, against the run of the same code in exact arithmetic (C15, C17, C18, C66). M is any bound between 2^-900 and 2^1000."
  },
  {
   "property": "C128",
   "status": "proved",
   "theorems": [
    "Geom3d.C128_crack",
    "Geom3d.C128_cubic",
    "Geom3d.C128_quadratic",
    "Geom3d.C128_line",
    "Geom3d.C128_circle",
    "Geom3d.C128_circle_crack",
    "Geom3d.C128_example",
    "Geom3d.C128_missed",
    "Geom3d.C128_cracks",
    "Geom3d.C128_two_turns"
   ],
   "note": "Exact reals. Findings: C128_missed (one random point is tested, so S-shaped cubics can be cut short by any distance), C128_cracks (each face draws anew), C128_two_turns."
  },
  {
   "property": "C129",
   "status": "proved",
   "theorems": [
    "Geom3d.C129_curve",
    "Geom3d.C129_derivative",
    "Geom3d.C129_bezier",
    "Geom3d.C129_surface_u",
    "Geom3d.C129_surface_v",
    "Geom3d.C129_example"
   ],
   "note": "binary64, against the derivative in the sense of analysis (HasDerivAt, through C60 and C65)."
  },
  {
   "property": "C13",
   "status": "proved",
   "theorems": [
    "Geom3d.C13_start",
    "Geom3d.C13_end",
    "Geom3d.C13_hull"
   ],
   "note": "Exact."
  },
  {
   "property": "C130",
   "status": "proved",
   "theorems": [
    "Geom3d.C130_normals",
    "Geom3d.C130_partials",
    "Geom3d.C130_example"
   ],
   "note": "binary64, against the exact partial derivatives (HasDerivAt)."
  },
  {
   "property": "C131",
   "status": "proved",
   "theorems": [
    "Geom3d.C131_sound",
    "Geom3d.C131_complete",
    "Geom3d.C131_symm",
    "Geom3d.C131_refl",
    "Geom3d.C131_not_transitive",
    "Geom3d.C131_apart",
    "Geom3d.C131_multiplicity",
    "Geom3d.C131_example"
   ],
   "note": "binary64; model of approx 0.4 ulps_eq! with its default epsilon and 4 ulps."
  },
  {
   "property": "C132",
   "status": "proved",
   "theorems": [
    "Geom3d.C132_prefix",
    "Geom3d.C132_honest",
    "Geom3d.C132_complete",
    "Geom3d.C132_text",
    "Geom3d.C132_file",
    "Geom3d.C132_example"
   ],
   "note": "law-free; formatting and parsing of floats are parameters with the round trip as hypothesis, decimal numbers are concrete."
  },
  {
   "property": "C133",
   "status": "proved",
   "theorems": [
    "Geom3d.C133_content",
    "Geom3d.C133_complete",
    "Geom3d.C133_lost",
    "Geom3d.C133_example"
   ],
   "note": "law-free; the loss is stated for save_point_cloud, the contents of the file for all three."
  },
  {
   "property": "C134",
   "status": "proved",
   "theorems": [
    "Geom3d.C134_single",
    "Geom3d.C134_holes",
    "Geom3d.C134_misplaced",
    "Geom3d.C134_trim",
    "Geom3d.C134_example"
   ],
   "note": "over the reals; one loop correct away from the centre of the ring and for faces of positive height, several loops wrong on half of the ring."
  },
  {
   "property": "C135",
   "status": "proved",
   "theorems": [
    "Geom3d.C135_tiling",
    "Geom3d.C135_never",
    "Geom3d.C135_real",
    "Geom3d.C135_example"
   ],
   "note": "exact arithmetic with the constant sqrt 3 / 2 below 1; replaces the condition on mesh edges in C122 by one on the input loops."
  },
  {
   "property": "C136",
   "status": "proved",
   "theorems": [
    "Geom3d.C136_face",
    "Geom3d.C136_empty",
    "Geom3d.C136_circle",
    "Geom3d.C136_disc",
    "Geom3d.C136_float",
    "Geom3d.C136_example"
   ],
   "note": "law-free core; instances over the reals (any circle) and in binary64 (any curve with a finite point at a finite parameter). A defect of the code, stated as it is."
  },
  {
   "property": "C137",
   "status": "proved",
   "theorems": [
    "Geom3d.C137_cylinder",
    "Geom3d.C137_bspline",
    "Geom3d.C137_float",
    "Geom3d.C137_tube",
    "Geom3d.C137_example"
   ],
   "note": "law-free core; the facts about the arithmetic are proved for ordered fields and for binary64 points of size up to 2^254; the file-level theorem is over the reals. A defect of the code, stated as it is."
  },
  {
   "property": "C138",
   "status": "proved",
   "theorems": [
    "Geom3d.C138_polygon",
    "Geom3d.C138_face",
    "Geom3d.C138_convert",
    "Geom3d.C138_example"
   ],
   "note": "over the reals; the tolerance is the one of the code, edges longer than its square root."
  },
  {
   "property": "C139",
   "status": "proved",
   "theorems": [
    "Geom3d.C139_triangle",
    "Geom3d.C139_float",
    "Geom3d.C139_face",
    "Geom3d.C139_convert",
    "Geom3d.C139_example"
   ],
   "note": "law-free core, exact and binary64 instances of its facts, file-level theorem over the reals. A defect of the code, stated as it is; for files without such edges see C138."
  },
  {
   "property": "C14",
   "status": "partial",
   "theorems": [
    "Geom3d.C14_derivative_partial",
    "Geom3d.C14_degree_zero_panics",
    "Geom3d.C14_outside_domain_false"
   ],
   "note": "The claim as worded is false on spans outside the valid domain of unclamped curves: C14_outside_domain_false. On the valid domain it is proved (C14_derivative_partial, C65). Degree 0 panics: law-free."
  },
  {
   "property": "C140",
   "status": "proved",
   "theorems": [
    "Geom3d.C140_sample",
    "Geom3d.C140_first",
    "Geom3d.C140_bspline",
    "Geom3d.C140_polyline_first",
    "Geom3d.C140_polyline_last",
    "Geom3d.C140_ends",
    "Geom3d.C140_edge",
    "Geom3d.C140_loop_lost",
    "Geom3d.C140_example"
   ],
   "note": "law-free core (C140_sample); over the reals for curves and edges. C140_loop_lost shows the condition is needed: a curve that passes through its end earlier, at a sample, loses its rest."
  },
  {
   "property": "C141",
   "status": "proved",
   "theorems": [
    "Geom3d.C141_face",
    "Geom3d.C141_convert",
    "Geom3d.C141_example"
   ],
   "note": "over the reals; the exempted points are those on lines through two vertices. Faces with a backward edge may also make the program panic (C38_underflow_panics), hence the statement is about runs that end without an error; with all edges in their direction C141_face says that the mesh exists."
  },
  {
   "property": "C142",
   "status": "proved",
   "theorems": [
    "Geom3d.C142_face",
    "Geom3d.C142_convert",
    "Geom3d.C142_closed",
    "Geom3d.C142_example"
   ],
   "note": "over the reals; complements C141, by which a convex face does not tolerate even one edge used against its direction. The exempted points are those on lines through two corners."
  },
  {
   "property": "C143",
   "status": "proved",
   "theorems": [
    "Geom3d.C143_face",
    "Geom3d.C143_convert",
    "Geom3d.C143_example"
   ],
   "note": "binary64 counterpart of C138. The tiling is stated for the mesh with its vertices put back to the corners of the file and their mean; the vertices that are written are within the stated distance of those."
  },
  {
   "property": "C144",
   "status": "proved",
   "theorems": [
    "Geom3d.C144_minors",
    "Geom3d.C144_bspline",
    "Geom3d.C144_convex",
    "Geom3d.C144_bezier",
    "Geom3d.C144_bezier_convex",
    "Geom3d.C144_winding",
    "Geom3d.C144_rational",
    "Geom3d.C144_example"
   ],
   "note": "exact arithmetic (any linear ordered field). The domain includes the last knot if the curve is clamped there, as in C112."
  },
  {
   "property": "C145",
   "status": "proved",
   "theorems": [
    "Geom3d.C145_rational",
    "Geom3d.C145_bezier",
    "Geom3d.C145_example"
   ],
   "note": "exact arithmetic; strictly increasing parameters."
  },
  {
   "property": "C146",
   "status": "proved",
   "theorems": [
    "Geom3d.C146_addKnot",
    "Geom3d.C146_split",
    "Geom3d.C146_piecewise",
    "Geom3d.C146_example"
   ],
   "note": "exact arithmetic; the parameter must be smaller than knot N (N control points), beyond which add_knot appends a zero control point (C16, C17)."
  },
  {
   "property": "C147",
   "status": "proved",
   "theorems": [
    "Geom3d.C147_fan",
    "Geom3d.C147_edge",
    "Geom3d.C147_loop",
    "Geom3d.C147_face",
    "Geom3d.C147_example"
   ],
   "note": "exact arithmetic (reals for arcs); assumes that sampling ends, which C109 shows for these curves. Faces with all turns within the tolerance, such as very small ones, give the empty mesh."
  },
  {
   "property": "C148",
   "status": "proved",
   "theorems": [
    "Geom3d.C148_chord",
    "Geom3d.C148_small",
    "Geom3d.C148_circle",
    "Geom3d.C148_loop",
    "Geom3d.C148_empty_iff",
    "Geom3d.C148_collinear",
    "Geom3d.C148_hole",
    "Geom3d.C148_hole_example",
    "Geom3d.C148_lens",
    "Geom3d.C148_step",
    "Geom3d.C148_example"
   ],
   "note": "finding: the sampling tolerance is absolute, so in files written in metres round holes and discs up to a centimetre that are split into two arcs are lost. Real arithmetic for sampling, any ordered field for trim and merge."
  },
  {
   "property": "C149",
   "status": "proved",
   "theorems": [
    "Geom3d.C149_tiling",
    "Geom3d.C149_face",
    "Geom3d.C149_dull"
   ],
   "note": "extends C121 to loops with vertices on the sides. Finding (C149_dull): a sharp corner with vertices 0.0004 from it is lost together with everything up to the neighbouring corners. Exact arithmetic."
  },
  {
   "property": "C15",
   "status": "proved",
   "theorems": [
    "Geom3d.C15_addKnot",
    "Geom3d.C15_addKnots",
    "Geom3d.C15_addKnot_below"
   ],
   "note": "Exact; single insertions, sequences, and knots below the range."
  },
  {
   "property": "C150",
   "status": "proved",
   "theorems": [
    "Geom3d.C150_mesh",
    "Geom3d.C150_converges",
    "Geom3d.C150_file",
    "Geom3d.C150_chord",
    "Geom3d.C150_sharp"
   ],
   "note": "exact real arithmetic, polynomial patches (not rational). C150_sharp: the bound is attained. Rounding of the vertices is bounded in C106."
  },
  {
   "property": "C151",
   "status": "proved",
   "theorems": [
    "Geom3d.C151_mesh",
    "Geom3d.C151_example"
   ],
   "note": "binary64 with all rounding (C106 for the vertices, C95 for the parameters), composed with C150. Polynomial patches over the unit square."
  },
  {
   "property": "C152",
   "status": "proved",
   "theorems": [
    "Geom3d.C152_bspline",
    "Geom3d.C152_bspline_example",
    "Geom3d.C152_points",
    "Geom3d.C152_bezier",
    "Geom3d.C152_circle",
    "Geom3d.C152_circle_needs",
    "Geom3d.C152_example"
   ],
   "note": "exact arithmetic. C152_example: half a turn of the unit circle with tolerance 0.01 gives 8 to 23 points."
  },
  {
   "property": "C153",
   "status": "proved",
   "theorems": [
    "Geom3d.C153_polygon",
    "Geom3d.C153_curve",
    "Geom3d.C153_sharp",
    "Geom3d.C153_example",
    "Geom3d.C153_float"
   ],
   "note": "exact arithmetic; C153_float composes with the rounding error of C92. C153_sharp shows that the bound is attained."
  },
  {
   "property": "C154",
   "status": "proved",
   "theorems": [
    "Geom3d.C154_mesh",
    "Geom3d.C154_plane",
    "Geom3d.C154_cylinder",
    "Geom3d.C154_sweep",
    "Geom3d.C154_spin",
    "Geom3d.C154_umbrella",
    "Geom3d.C154_example",
    "Geom3d.C154_example_torus",
    "Geom3d.C154_example_cylinder"
   ],
   "note": "exact arithmetic with real sine and cosine; C154_spin needs a unit axis, C154_cylinder an orthonormal frame and a radius of 0 or more."
  },
  {
   "property": "C155",
   "status": "proved",
   "theorems": [
    "Geom3d.C155_bows",
    "Geom3d.C155_mesh",
    "Geom3d.C155_uniform",
    "Geom3d.C155_example"
   ],
   "note": "exact arithmetic; not rational surfaces, and not degree 1, whose curves are not smooth. C155_bows gives the bounds of C154, C155_mesh the mesh."
  },
  {
   "property": "C156",
   "status": "proved",
   "theorems": [
    "Geom3d.C156_off_knots",
    "Geom3d.C156_bspline",
    "Geom3d.C156_insertions",
    "Geom3d.C156_bezier",
    "Geom3d.C156_surface",
    "Geom3d.C156_example"
   ],
   "note": "exact arithmetic over the reals."
  },
  {
   "property": "C157",
   "status": "proved",
   "theorems": [
    "Geom3d.C157_newton",
    "Geom3d.C157_nearest",
    "Geom3d.C157_bezier",
    "Geom3d.C157_example",
    "Geom3d.C157_furthest",
    "Geom3d.C157_furthest_f64",
    "Geom3d.C157_double"
   ],
   "note": "exact arithmetic, except C157_furthest_f64 (binary64). C157_newton is the local statement, C157_nearest the one for any curve, C157_bezier the one about control points."
  },
  {
   "property": "C158",
   "status": "proved",
   "theorems": [
    "Geom3d.C158_commute",
    "Geom3d.C158_second",
    "Geom3d.C158_polygon",
    "Geom3d.C158_insertions",
    "Geom3d.C158_limit",
    "Geom3d.C158_example"
   ],
   "note": "C158_commute, C158_second, C158_polygon, C158_insertions, C158_limit over the reals; C158_example is a parabola with the knot one half."
  },
  {
   "property": "C159",
   "status": "proved",
   "theorems": [
    "Geom3d.C159_bilinear",
    "Geom3d.C159_inverse",
    "Geom3d.C159_saddle",
    "Geom3d.C159_plane",
    "Geom3d.C159_nearest",
    "Geom3d.C159_skew",
    "Geom3d.C159_newton"
   ],
   "note": "Over the reals. C159_plane and C159_nearest say what is returned on plane patches; C159_skew is the counterexample beyond an oblique corner; C159_newton is the local theorem for any jet; C159_bilinear and C159_inverse apply it to bilinear patches; C159_saddle is the patch (u, v, uv/3)."
  },
  {
   "property": "C16",
   "status": "partial",
   "theorems": [
    "Geom3d.C16_addKnot_panics_iff",
    "Geom3d.C16_clamp_panics",
    "Geom3d.C16_false",
    "Geom3d.C16_addKnot_partial",
    "Geom3d.C16_clamp_partial"
   ],
   "note": "False of the code: add_knot panics exactly when 1 <= index <= degree (C16_addKnot_panics_iff, law-free), so clamp panics on every curve not clamped at its start (C16_clamp_panics). What holds: C16_addKnot_partial, C16_clamp_partial."
  },
  {
   "property": "C160",
   "status": "proved",
   "theorems": [
    "Geom3d.C160_grid",
    "Geom3d.C160_mesh",
    "Geom3d.C160_limit",
    "Geom3d.C160_plane",
    "Geom3d.C160_cylinder",
    "Geom3d.C160_bezier",
    "Geom3d.C160_bspline"
   ],
   "note": "Over the reals. C160_mesh is the bound for any surface with Lipschitz tangents, C160_limit the limit, C160_plane and C160_cylinder the exact areas, C160_bezier the bound from the control points; examples: the trough (u, v, u^2) and a half cylinder divided 16 by 16."
  },
  {
   "property": "C161",
   "status": "proved",
   "theorems": [
    "Geom3d.C161_grid",
    "Geom3d.C161_mesh",
    "Geom3d.C161_normals",
    "Geom3d.C161_bezier",
    "Geom3d.C161_tangents",
    "Geom3d.C161_bspline",
    "Geom3d.C161_example"
   ],
   "note": "Over the reals. C161_grid and C161_mesh: triangles against the tangents anywhere in the cell; C161_normals: against the stored normals; C161_tangents: the derivative surfaces of a clamped B-spline surface are Lipschitz tangents; C161_bspline, C161_bezier: the instances; examples: the surface rise divided 96 by 96 and the trough divided 48 by 48, within 30 degrees. C160_bspline in the same file adds B-spline surfaces to C160."
  },
  {
   "property": "C162",
   "status": "proved",
   "theorems": [
    "Geom3d.C162_volume",
    "Geom3d.C162_tube",
    "Geom3d.C162_closed",
    "Geom3d.C162_cylinder",
    "Geom3d.C162_spin",
    "Geom3d.C162_grids",
    "Geom3d.C162_patches",
    "Geom3d.C162_gap"
   ],
   "note": "Over the reals, by boundary chains (C162_tube, C162_closed); C162_cylinder, C162_spin and C162_patches are the instances, C162_volume what follows; C162_gap is the failure in binary64, given the correctly rounded sine and cosine of 0 and of the number next to pi. Examples: sphere, torus, a cushion of two patches."
  },
  {
   "property": "C163",
   "status": "proved",
   "theorems": [
    "Geom3d.C163_grid",
    "Geom3d.C163_mesh",
    "Geom3d.C163_limit",
    "Geom3d.C163_bezier"
   ],
   "note": "Over the reals: C163_grid and C163_mesh bound the error, C163_limit is the convergence, C163_bezier the instance for Bezier patches. Example: the cone over the parabolic trough of C160 has the signed volume -1/9."
  },
  {
   "property": "C164",
   "status": "proved",
   "theorems": [
    "Geom3d.C164_tangents",
    "Geom3d.C164_area",
    "Geom3d.C164_guldin",
    "Geom3d.C164_volume",
    "Geom3d.C164_mesh",
    "Geom3d.C164_solid",
    "Geom3d.C164_torus",
    "Geom3d.C164_sphere"
   ],
   "note": "Over the reals: C164_tangents, C164_area, C164_guldin, C164_volume are about the surface, C164_mesh and C164_solid about its meshes, C164_torus and C164_sphere the instances with circles. Examples: the unit sphere in both senses and the torus of C154."
  },
  {
   "property": "C165",
   "status": "proved",
   "theorems": [
    "Geom3d.C165_tangents",
    "Geom3d.C165_mesh",
    "Geom3d.C165_prism",
    "Geom3d.C165_umbrella_point",
    "Geom3d.C165_umbrella"
   ],
   "note": "Over the reals: C165_tangents and C165_mesh are about sweeps, C165_prism about straight paths (exact, no assumption on the section), C165_umbrella_point and C165_umbrella about the umbrella. Examples: a tube over a circle, the umbrella of the test with a fine division."
  },
  {
   "property": "C166",
   "status": "proved",
   "theorems": [
    "Geom3d.C166_patch",
    "Geom3d.C166_invariant",
    "Geom3d.C166_solid",
    "Geom3d.C166_cushion"
   ],
   "note": "Over the reals: C166_patch is about one patch, C166_invariant says that the volume does not depend on the apex, C166_solid is about the meshes of the whole set. The example is the cushion of C162, which encloses 16/9 (C166_cushion)."
  },
  {
   "property": "C167",
   "status": "proved",
   "theorems": [
    "Geom3d.C167_vertices",
    "Geom3d.C167_mesh",
    "Geom3d.C167_solid",
    "Geom3d.C167_example"
   ],
   "note": "In binary64, with areas and volumes of the exact values of the vertices: C167_vertices, C167_mesh (one patch), C167_solid (a set of patches). The example computes the cushion of C162 with 50000 by 50000 divisions (C167_example)."
  },
  {
   "property": "C168",
   "status": "proved",
   "theorems": [
    "Geom3d.C168_closed",
    "Geom3d.C168_invariant",
    "Geom3d.C168_solid",
    "Geom3d.C168_can"
   ],
   "note": "Over the reals: C168_closed (watertight), C168_invariant (any apex), C168_solid (meshes), C168_can (cylinder with two discs). The example is a can of radius 1 and height 2 with a fine division."
  },
  {
   "property": "C169",
   "status": "proved",
   "theorems": [
    "Geom3d.C169_watertight",
    "Geom3d.C169_example",
    "Geom3d.C169_crack",
    "Geom3d.C169_pole"
   ],
   "note": "In binary64: C169_watertight for sides in the same direction, C169_example (the cushion, all divisions). C169_crack and C169_pole evaluate meshes that show why sides in opposite directions and collapsed sides are left out."
  },
  {
   "property": "C17",
   "status": "proved",
   "theorems": [
    "Geom3d.C17_split",
    "Geom3d.C17_split_counts",
    "Geom3d.C17_split_at_last_knot"
   ],
   "note": "Exact; hypotheses: t in the valid domain below the last knot. C17_split_at_last_knot shows what happens at the last knot."
  },
  {
   "property": "C170",
   "status": "proved",
   "theorems": [
    "Geom3d.C170_sound",
    "Geom3d.C170_sealed",
    "Geom3d.C170_solid",
    "Geom3d.C170_example"
   ],
   "note": "Over the reals: C170_sound (patches of C168), C170_sealed (sides as B-spline curves), C170_solid (meshes), C170_example (a pillow of two quadratic surfaces)."
  },
  {
   "property": "C171",
   "status": "proved",
   "theorems": [
    "Geom3d.C171_watertight",
    "Geom3d.C171_example",
    "Geom3d.C171_scaled"
   ],
   "note": "Over binary64: C171_watertight (finite and watertight meshes), C171_example (a discus with the unit circle as rim), C171_scaled (a crack with proportional weights)."
  },
  {
   "property": "C172",
   "status": "proved",
   "theorems": [
    "Geom3d.C172_tangents",
    "Geom3d.C172_sound",
    "Geom3d.C172_area",
    "Geom3d.C172_sealed",
    "Geom3d.C172_solid",
    "Geom3d.C172_example"
   ],
   "note": "Over the reals: C172_tangents (derivatives of a quotient), C172_sound (rational patches), C172_area (area of a mesh), C172_sealed and C172_solid (watertight, volume), C172_example (a discus with the unit circle as rim)."
  },
  {
   "property": "C173",
   "status": "proved",
   "theorems": [
    "Geom3d.C173_of_coupled",
    "Geom3d.C173_sealed",
    "Geom3d.C173_solid",
    "Geom3d.C173_example"
   ],
   "note": "Over the reals: C173_sealed (closed), C173_solid (watertight, volume), C173_of_coupled (the special case of C172), C173_example (a discus with uneven weights)."
  },
  {
   "property": "C174",
   "status": "proved",
   "theorems": [
    "Geom3d.C174_sound",
    "Geom3d.C174_area",
    "Geom3d.C174_sealed",
    "Geom3d.C174_solid",
    "Geom3d.C174_example"
   ],
   "note": "Over the reals: C174_sound (tangents of the quotient), C174_area (area of a mesh), C174_sealed and C174_solid (watertight, volume), C174_example (a cushion with uneven weights)."
  },
  {
   "property": "C175",
   "status": "proved",
   "theorems": [
    "Geom3d.C175_mesh",
    "Geom3d.C175_solid",
    "Geom3d.C175_rational",
    "Geom3d.C175_rational_solid",
    "Geom3d.C175_example"
   ],
   "note": "Over binary64 against the reals: C175_mesh and C175_solid (patches of any kind), C175_rational (a rational patch), C175_rational_solid (watertight sets of them), C175_example (a bilinear rational patch)."
  },
  {
   "property": "C176",
   "status": "proved",
   "theorems": [
    "Geom3d.C176_nurbs",
    "Geom3d.C176_solid",
    "Geom3d.C176_example"
   ],
   "note": "Over binary64 against the reals: C176_nurbs (one surface), C176_solid (the sum of the volumes of several), C176_example (a quadratic mound of 4 by 4 control points). Watertightness is not claimed: it fails in binary64 at knots (C114_bspline_crack)."
  },
  {
   "property": "C18",
   "status": "proved",
   "theorems": [
    "Geom3d.C18_toPiecewiseBezier"
   ],
   "note": "Exact; distinct knots separated by more than the tolerance."
  },
  {
   "property": "C19",
   "status": "proved",
   "theorems": [
    "Geom3d.C19_bezier",
    "Geom3d.C19_bspline",
    "Geom3d.C19_bezier_surface",
    "Geom3d.C19_bspline_surface",
    "Geom3d.C19_bezier_equal",
    "Geom3d.C19_bspline_equal",
    "Geom3d.C19_bezier_surface_equal",
    "Geom3d.C19_bspline_surface_equal",
    "Geom3d.C19_bezier_scale",
    "Geom3d.C19_bspline_scale",
    "Geom3d.C19_bezier_surface_scale",
    "Geom3d.C19_bspline_surface_scale",
    "Geom3d.C19_example"
   ],
   "note": "Exact. Scaling holds for all parameters including panics; the other parts on the valid domain."
  },
  {
   "property": "C20",
   "status": "partial",
   "theorems": [
    "Geom3d.C20_nearest_partial",
    "Geom3d.C20_inverse_partial",
    "Geom3d.C20_false"
   ],
   "note": "False of the code for directions that are not unit vectors (C20_false: every such direction is a counterexample). Proved for unit directions; C68 states what holds for all directions."
  },
  {
   "property": "C21",
   "status": "proved",
   "theorems": [
    "Geom3d.C21_on_circle",
    "Geom3d.C21_periodic",
    "Geom3d.C21_project_range",
    "Geom3d.C21_inverse",
    "Geom3d.C21_nearest",
    "Geom3d.C21_counterclockwise"
   ],
   "note": "Over the reals; atan2 is the argument of the complex number x+iy."
  },
  {
   "property": "C22",
   "status": "partial",
   "theorems": [
    "Geom3d.C22_sweep_partial",
    "Geom3d.C22_same_endpoints",
    "Geom3d.C22_closed_edge_false"
   ],
   "note": "False of the code for coinciding end points (C22_closed_edge_false): the range is returned unchanged instead of a full turn. Proved for different angles; C67 states the exact sweep in all cases."
  },
  {
   "property": "C23",
   "status": "proved",
   "theorems": [
    "Geom3d.C23_arc_length",
    "Geom3d.C23_start",
    "Geom3d.C23_end",
    "Geom3d.C23_lipschitz"
   ],
   "note": "Over the reals; also a Lipschitz bound, and termination of adaptive subdivision of polylines."
  },
  {
   "property": "C24",
   "status": "partial",
   "theorems": [
    "Geom3d.C24_false",
    "Geom3d.C24_panics_iff_partial"
   ],
   "note": "False of the code: C24_false exhibits finite binary64 vertices for which get_point reaches unreachable!(). In exact arithmetic there is no panic (C23_arc_length). The missing part is false; C24_panics_iff_partial gives the exact panic condition for any floating point behaviour."
  },
  {
   "property": "C25",
   "status": "partial",
   "theorems": [
    "Geom3d.C25_nearest_partial",
    "Geom3d.C25_segment_partial",
    "Geom3d.C25_false_f64",
    "Geom3d.C25_false"
   ],
   "note": "False of the code (C25_false over the reals, C25_false_f64): the foot of the perpendicular is not clamped to the chosen segment. Proved when the foot is not beyond an inner vertex of the nearest segment, and for two vertices."
  },
  {
   "property": "C26",
   "status": "proved",
   "theorems": [
    "Geom3d.C26_find_nearest_parameter",
    "Geom3d.C26_no_trials",
    "Geom3d.C26_zero_division_panics"
   ],
   "note": "Exact."
  },
  {
   "property": "C27",
   "status": "partial",
   "theorems": [
    "Geom3d.C27_false_f64",
    "Geom3d.C27_nearest_partial",
    "Geom3d.C27_segment_partial"
   ],
   "note": "False of the code (C27_false_f64): the arc-length ratio is used as parameter ratio. Proved for knots proportional to arc length under the conditions of C25, and for two control points."
  },
  {
   "property": "C28",
   "status": "proved",
   "theorems": [
    "Geom3d.C28_ends",
    "Geom3d.C28_zero_panics",
    "Geom3d.C28_entries",
    "Geom3d.C28_monotone",
    "Geom3d.C28_in_range"
   ],
   "note": "End values law-free; entries and monotonicity exact."
  },
  {
   "property": "C29",
   "status": "proved",
   "theorems": [
    "Geom3d.C29_ends",
    "Geom3d.C29_chords",
    "Geom3d.C29_monotone_of",
    "Geom3d.C29_fuel_mono",
    "Geom3d.C29_monotone",
    "Geom3d.C29_ratio"
   ],
   "note": "Law-free, monotonicity also in any order preserved by the midpoint; exact for ordered fields."
  },
  {
   "property": "C30",
   "status": "proved",
   "theorems": [
    "Geom3d.C30_terminates",
    "Geom3d.C30_terminates_exists",
    "Geom3d.C30_diverges",
    "Geom3d.C30_polyline_terminates",
    "Geom3d.C30_diverges_of"
   ],
   "note": "Over the reals; divergence for tolerance <= 0 also law-free."
  },
  {
   "property": "C31",
   "status": "proved",
   "theorems": [
    "Geom3d.C31_polyline",
    "Geom3d.C31_nearest",
    "Geom3d.C31_nothing_close",
    "Geom3d.C31_in_bounds",
    "Geom3d.C31_nearest_in_grid",
    "Geom3d.C31_nothing_close_in_grid"
   ],
   "note": "Any linear order with bare operations; in-bounds law-free."
  },
  {
   "property": "C32",
   "status": "proved",
   "theorems": [
    "Geom3d.C32_distance3",
    "Geom3d.C32_distance2"
   ],
   "note": "Over the reals."
  },
  {
   "property": "C33",
   "status": "proved",
   "theorems": [
    "Geom3d.C33_exact",
    "Geom3d.C33_tolerant_accepts",
    "Geom3d.C33_tolerant_iff",
    "Geom3d.C33_clockwise"
   ],
   "note": "Exact."
  },
  {
   "property": "C34",
   "status": "proved",
   "theorems": [
    "Geom3d.C34_exact",
    "Geom3d.C34_symmetric"
   ],
   "note": "Exact."
  },
  {
   "property": "C35",
   "status": "proved",
   "theorems": [
    "Geom3d.C35_clamp_between",
    "Geom3d.C35_clamp_id",
    "Geom3d.C35_clamp_outside",
    "Geom3d.C35_clamp_idem",
    "Geom3d.C35_clamp_unordered_panics",
    "Geom3d.C35_minmax",
    "Geom3d.C35_minmax_empty"
   ],
   "note": "Any linear order."
  },
  {
   "property": "C36",
   "status": "proved",
   "theorems": [
    "Geom3d.C36_sign",
    "Geom3d.C36_empty_panics",
    "Geom3d.C36_rotate",
    "Geom3d.C36_translate",
    "Geom3d.C36_reverse"
   ],
   "note": "Exact; panic law-free."
  },
  {
   "property": "C37",
   "status": "proved",
   "theorems": [
    "Geom3d.C37_compute",
    "Geom3d.C37_find_concave"
   ],
   "note": "Exact."
  },
  {
   "property": "C38",
   "status": "proved",
   "theorems": [
    "Geom3d.C38_valid",
    "Geom3d.C38_few_panics",
    "Geom3d.C38_pass_complete",
    "Geom3d.C38_terminates",
    "Geom3d.C38_fuel_irrelevant",
    "Geom3d.C38_panics_only_underflow",
    "Geom3d.C38_underflow_panics"
   ],
   "note": "Law-free. Beyond the statement: the only panic for valid indices and n >= 2 is a usize underflow, and C38_underflow_panics shows it is reachable."
  },
  {
   "property": "C39",
   "status": "partial",
   "theorems": [
    "Geom3d.C39_incomplete",
    "Geom3d.C39_area_lost",
    "Geom3d.C39_area_partial"
   ],
   "note": "False as stated: C39_area_lost (area lost when both neighbours of an ear are dropped) and C39_incomplete (a simple polygon left partly untriangulated). C39_area_partial proves the bound under a separation hypothesis; C69 has the complete balance."
  },
  {
   "property": "C40",
   "status": "proved",
   "theorems": [
    "Geom3d.C40_merge",
    "Geom3d.C40_length",
    "Geom3d.C40_empty_panics",
    "Geom3d.C40_area",
    "Geom3d.C40_outer",
    "Geom3d.C40_empty_hole"
   ],
   "note": "Edges, vertices and count for any arithmetic (law-free), area exact, outer loop for any linear order. Hypothesis LoopsOk: loops lie inside the point array and have a vertex whose x exceeds Float::MIN. Finding C40_empty_hole: an empty loop re-inserts earlier vertices."
  },
  {
   "property": "C41",
   "status": "proved",
   "theorems": [
    "Geom3d.C41_valid",
    "Geom3d.C41_candidate_distinct",
    "Geom3d.C41_degenerate"
   ],
   "note": "Law-free; the selection of the next node is an oracle with contract PickOk."
  },
  {
   "property": "C42",
   "status": "proved",
   "theorems": [
    "Geom3d.C42_weight",
    "Geom3d.C42_boundary",
    "Geom3d.C42_watertight",
    "Geom3d.C42_area"
   ],
   "note": "Boundary law-free, area exact; hypothesis: every loop has at least one vertex."
  },
  {
   "property": "C43",
   "status": "proved",
   "theorems": [
    "Geom3d.C43_size",
    "Geom3d.C43_manifold",
    "Geom3d.C43_rim",
    "Geom3d.C43_empty_panics",
    "Geom3d.C43_example"
   ],
   "note": "Law-free, for grids with fewer than 2^32 points; an empty grid panics (C43_empty_panics)."
  },
  {
   "property": "C44",
   "status": "proved",
   "theorems": [
    "Geom3d.C44_mesh",
    "Geom3d.C44_total",
    "Geom3d.C44_zero_panics",
    "Geom3d.C44_example"
   ],
   "note": "Law-free."
  },
  {
   "property": "C45",
   "status": "proved",
   "theorems": [
    "Geom3d.C45_repaired",
    "Geom3d.C45_empty",
    "Geom3d.C45_copies",
    "Geom3d.C45_stays_nan",
    "Geom3d.C45_mesh",
    "Geom3d.C45_example"
   ],
   "note": "Law-free, NaN test abstract."
  },
  {
   "property": "C46",
   "status": "partial",
   "theorems": [
    "Geom3d.C46_partial",
    "Geom3d.C46_normals_lost",
    "Geom3d.C46_bspline_normals_lost"
   ],
   "note": "False of the code: Box<dyn Surface> does not forward get_normals (C46_normals_lost, C46_bspline_normals_lost). Vertices, triangles, point grid and trimming are proved equal (C46_partial); C71 has the complete statement."
  },
  {
   "property": "C47",
   "status": "proved",
   "theorems": [
    "Geom3d.C47_reverse",
    "Geom3d.C47_involution",
    "Geom3d.C47_panics",
    "Geom3d.C47_example"
   ],
   "note": "Law-free."
  },
  {
   "property": "C48",
   "status": "proved",
   "theorems": [
    "Geom3d.C48_obj",
    "Geom3d.C48_resolved",
    "Geom3d.C48_example"
   ],
   "note": "Law-free; hypotheses: valid indices and fewer than 2^32 vertices/normals in total."
  },
  {
   "property": "C49",
   "status": "proved",
   "theorems": [
    "Geom3d.C49_header",
    "Geom3d.C49_decode",
    "Geom3d.C49_applies",
    "Geom3d.C49_example"
   ],
   "note": "Law-free; f64 to f32 conversion and float text are parameters."
  },
  {
   "property": "C50",
   "status": "proved",
   "theorems": [
    "Geom3d.C50_crash",
    "Geom3d.C50_example"
   ],
   "note": "Crash states: any prefix of the device operations."
  },
  {
   "property": "C51",
   "status": "partial",
   "theorems": [
    "Geom3d.C51_lines",
    "Geom3d.C51_last_line",
    "Geom3d.C51_comment",
    "Geom3d.C51_skip",
    "Geom3d.C51_three",
    "Geom3d.C51_four",
    "Geom3d.C51_panics",
    "Geom3d.C51_roundtrip_partial",
    "Geom3d.C51_normals_lost",
    "Geom3d.C51_contract",
    "Geom3d.C51_example",
    "Geom3d.C51_scale"
   ],
   "note": "False for files with normals (C51_normals_lost: six columns load as nothing); all other parts proved. C81 has the complete statement."
  },
  {
   "property": "C52",
   "status": "proved",
   "theorems": [
    "Geom3d.C52_project_getPoint",
    "Geom3d.C52_getPoint_project",
    "Geom3d.C52_nearest",
    "Geom3d.C52_example"
   ],
   "note": "Exact."
  },
  {
   "property": "C53",
   "status": "proved",
   "theorems": [
    "Geom3d.C53_valid",
    "Geom3d.C53_fan",
    "Geom3d.C53_clockwise",
    "Geom3d.C53_no_loop",
    "Geom3d.C53_example"
   ],
   "note": "Validity law-free; fan and empty mesh exact."
  },
  {
   "property": "C54",
   "status": "proved",
   "theorems": [
    "Geom3d.C54_counterclockwise",
    "Geom3d.C54_height",
    "Geom3d.C54_on_cylinder",
    "Geom3d.C54_project_getPoint",
    "Geom3d.C54_getPoint_project",
    "Geom3d.C54_example"
   ],
   "note": "Reals."
  },
  {
   "property": "C55",
   "status": "partial",
   "theorems": [
    "Geom3d.C55_inverse_partial",
    "Geom3d.C55_false"
   ],
   "note": "False of the code for faces whose heights do not lie below the ring distance with the right sign (C55_false gives a cylinder and point). Proved where the quotient d/(d-z) is positive; C79 has the exact range."
  },
  {
   "property": "C56",
   "status": "proved",
   "theorems": [
    "Geom3d.C56_zero",
    "Geom3d.C56_distances",
    "Geom3d.C56_periodic",
    "Geom3d.C56_add",
    "Geom3d.C56_example"
   ],
   "note": "Reals."
  },
  {
   "property": "C57",
   "status": "proved",
   "theorems": [
    "Geom3d.C57_sweep",
    "Geom3d.C57_translates",
    "Geom3d.C57_apex",
    "Geom3d.C57_rim",
    "Geom3d.C57_symmetry",
    "Geom3d.C57_example"
   ],
   "note": "Exact and reals."
  },
  {
   "property": "C58",
   "status": "proved",
   "theorems": [
    "Geom3d.C58_columns",
    "Geom3d.C58_rows",
    "Geom3d.C58_corners",
    "Geom3d.C58_convex",
    "Geom3d.C58_empty",
    "Geom3d.C58_new",
    "Geom3d.C58_example"
   ],
   "note": "Exact; C58_empty: an empty net panics."
  },
  {
   "property": "C59",
   "status": "proved",
   "theorems": [
    "Geom3d.C59_columns",
    "Geom3d.C59_rows",
    "Geom3d.C59_total",
    "Geom3d.C59_hull",
    "Geom3d.C59_constant",
    "Geom3d.C59_corners"
   ],
   "note": "Exact; span conditions as in C13."
  },
  {
   "property": "C60",
   "status": "proved",
   "theorems": [
    "Geom3d.C60_derivativeU",
    "Geom3d.C60_derivativeV",
    "Geom3d.C60_degree_zero",
    "Geom3d.C60_example"
   ],
   "note": "Reals."
  },
  {
   "property": "C61",
   "status": "proved",
   "theorems": [
    "Geom3d.C61_new",
    "Geom3d.C61_truncation",
    "Geom3d.C61_evaluates",
    "Geom3d.C61_corners",
    "Geom3d.C61_truncation_wrong",
    "Geom3d.C61_example"
   ],
   "note": "Law-free and exact; finding C61_truncation_wrong (degree 256 is stored as 0)."
  },
  {
   "property": "C62",
   "status": "proved",
   "theorems": [
    "Geom3d.C62_polygon",
    "Geom3d.C62_order",
    "Geom3d.C62_empty_panics",
    "Geom3d.C62_loop",
    "Geom3d.C62_example",
    "Geom3d.C62_seam_duplicate"
   ],
   "note": "Law-free. Findings: C62_seam_duplicate, C62_empty_panics."
  },
  {
   "property": "C63",
   "status": "partial",
   "theorems": [
    "Geom3d.C63_line_partial",
    "Geom3d.C63_circle_partial",
    "Geom3d.C63_false",
    "Geom3d.C63_orientation_false"
   ],
   "note": "False of the code: direction ratios and axes are not normalised (C63_false) and orientation flags are ignored (C63_orientation_false). Proved for unit directions and axes; C85 has the exact condition, C86 what is ignored."
  },
  {
   "property": "C64",
   "status": "partial",
   "theorems": [
    "Geom3d.C64_pieces_partial",
    "Geom3d.C64_false",
    "Geom3d.C64_applies",
    "Geom3d.C64_example"
   ],
   "note": "False for inner knots of multiplicity 4 (C64_false), where the curve may jump; proved for multiplicity at most 3. C83 has the exact condition."
  },
  {
   "property": "C65",
   "status": "proved",
   "theorems": [
    "Geom3d.C65_derivative",
    "Geom3d.C65_derivative_clamped"
   ],
   "note": "Over the reals."
  },
  {
   "property": "C66",
   "status": "proved",
   "theorems": [
    "Geom3d.C66_addKnot",
    "Geom3d.C66_clamp"
   ],
   "note": "First part law-free, clamp exact."
  },
  {
   "property": "C67",
   "status": "proved",
   "theorems": [
    "Geom3d.C67_closed_edge_unchanged",
    "Geom3d.C67_sweep"
   ],
   "note": "Over the reals; the closed-edge case law-free."
  },
  {
   "property": "C68",
   "status": "proved",
   "theorems": [
    "Geom3d.C68_inverse_iff",
    "Geom3d.C68_nearest"
   ],
   "note": "Any ordered field."
  },
  {
   "property": "C69",
   "status": "proved",
   "theorems": [
    "Geom3d.C69_area_balance",
    "Geom3d.C69_area_bound",
    "Geom3d.C69_exact"
   ],
   "note": "Exact."
  },
  {
   "property": "C70",
   "status": "proved",
   "theorems": [
    "Geom3d.C70_convex_complete",
    "Geom3d.C70_convex_area",
    "Geom3d.C70_pipeline"
   ],
   "note": "Count law-free, area exact."
  },
  {
   "property": "C71",
   "status": "proved",
   "theorems": [
    "Geom3d.C71_boxed",
    "Geom3d.C71_points",
    "Geom3d.C71_example"
   ],
   "note": "Law-free."
  },
  {
   "property": "C72",
   "status": "proved",
   "theorems": [
    "Geom3d.C72_fan_positive",
    "Geom3d.C72_example"
   ],
   "note": "Exact."
  },
  {
   "property": "C73",
   "status": "partial",
   "theorems": [
    "Geom3d.C73_partial",
    "Geom3d.C73_reversed",
    "Geom3d.C73_example"
   ],
   "note": "False of the code for single loops on cylinders and B-spline surfaces (C73_reversed). Proved for planes when the mesh is a fan or uses every vertex; C77 has the complete statement for cylinders and B-splines."
  },
  {
   "property": "C74",
   "status": "proved",
   "theorems": [
    "Geom3d.C74_area",
    "Geom3d.C74_example"
   ],
   "note": "Exact."
  },
  {
   "property": "C75",
   "status": "proved",
   "theorems": [
    "Geom3d.C75_balance",
    "Geom3d.C75_boundary",
    "Geom3d.C75_example"
   ],
   "note": "Law-free."
  },
  {
   "property": "C76",
   "status": "proved",
   "theorems": [
    "Geom3d.C76_cylinder",
    "Geom3d.C76_bspline",
    "Geom3d.C76_example"
   ],
   "note": "Law-free; hypothesis PickOk is the contract of the nearest-point pick."
  },
  {
   "property": "C77",
   "status": "proved",
   "theorems": [
    "Geom3d.C77_cylinder",
    "Geom3d.C77_bspline",
    "Geom3d.C77_faces"
   ],
   "note": "Law-free."
  },
  {
   "property": "C78",
   "status": "proved",
   "theorems": [
    "Geom3d.C78_empty"
   ],
   "note": "Law-free; default trait method."
  },
  {
   "property": "C79",
   "status": "proved",
   "theorems": [
    "Geom3d.C79_mirror",
    "Geom3d.C79_iff",
    "Geom3d.C79_trim",
    "Geom3d.C79_example"
   ],
   "note": "Reals."
  },
  {
   "property": "C80",
   "status": "proved",
   "theorems": [
    "Geom3d.C80_crash_states",
    "Geom3d.C80_complete",
    "Geom3d.C80_false_success",
    "Geom3d.C80_example"
   ],
   "note": "Law-free."
  },
  {
   "property": "C81",
   "status": "proved",
   "theorems": [
    "Geom3d.C81_normals",
    "Geom3d.C81_points"
   ],
   "note": "Law-free."
  },
  {
   "property": "C82",
   "status": "proved",
   "theorems": [
    "Geom3d.C82_join",
    "Geom3d.C82_jump",
    "Geom3d.C82_example"
   ],
   "note": "Exact; C82_jump shows the bound is sharp."
  },
  {
   "property": "C83",
   "status": "proved",
   "theorems": [
    "Geom3d.C83_exact_iff",
    "Geom3d.C83_pieces"
   ],
   "note": "Law-free."
  },
  {
   "property": "C84",
   "status": "proved",
   "theorems": [
    "Geom3d.C84_strokes",
    "Geom3d.C84_example"
   ],
   "note": "Law-free, character level; {:.2} is a parameter printing decimals."
  },
  {
   "property": "C85",
   "status": "proved",
   "theorems": [
    "Geom3d.C85_line",
    "Geom3d.C85_circle",
    "Geom3d.C85_example"
   ],
   "note": "Lines over any ordered field, circles over the reals."
  },
  {
   "property": "C86",
   "status": "proved",
   "theorems": [
    "Geom3d.C86_flags_ignored",
    "Geom3d.C86_edge_dropped",
    "Geom3d.C86_face_dropped",
    "Geom3d.C86_part_order"
   ],
   "note": "Law-free."
  },
  {
   "property": "C87",
   "status": "proved",
   "theorems": [
    "Geom3d.C87_plane",
    "Geom3d.C87_isometric",
    "Geom3d.C87_normal"
   ],
   "note": "Exact arithmetic."
  },
  {
   "property": "C88",
   "status": "proved",
   "theorems": [
    "Geom3d.C88_rational"
   ],
   "note": "Exact arithmetic."
  },
  {
   "property": "C89",
   "status": "proved",
   "theorems": [
    "Geom3d.C89_closed_edge"
   ],
   "note": "Over the reals, unit axis."
  },
  {
   "property": "C90",
   "status": "proved",
   "theorems": [
    "Geom3d.C90_bezier_face",
    "Geom3d.C90_rational_face",
    "Geom3d.C90_complex_face"
   ],
   "note": "Exact arithmetic; the proofs use no laws."
  },
  {
   "property": "C91",
   "status": "proved",
   "theorems": [
    "Geom3d.C91_bernstein",
    "Geom3d.C91_sum",
    "Geom3d.C91_ends"
   ],
   "note": "About Lean Float, whose kernel definition is IEEE binary64 (round to nearest even); not an exact-arithmetic idealisation."
  },
  {
   "property": "C92",
   "status": "proved",
   "theorems": [
    "Geom3d.C92_error",
    "Geom3d.C92_ends",
    "Geom3d.C92_box"
   ],
   "note": "About Lean Float (IEEE binary64)."
  },
  {
   "property": "C93",
   "status": "proved",
   "theorems": [
    "Geom3d.C93_clamp",
    "Geom3d.C93_newton",
    "Geom3d.C93_project",
    "Geom3d.C93_nearest_computed",
    "Geom3d.C93_nearest",
    "Geom3d.C93_nearest_in_grid_computed",
    "Geom3d.C93_nearest_in_grid",
    "Geom3d.C93_min_max"
   ],
   "note": "About Lean Float (IEEE binary64)."
  },
  {
   "property": "C94",
   "status": "proved",
   "theorems": [
    "Geom3d.C94_uniform",
    "Geom3d.C94_uniform_sorted",
    "Geom3d.C94_uniform_not_exact",
    "Geom3d.C94_normalize"
   ],
   "note": "About Lean Float (IEEE binary64)."
  },
  {
   "property": "C95",
   "status": "proved",
   "theorems": [
    "Geom3d.C95_sorted",
    "Geom3d.C95_only_inside",
    "Geom3d.C95_uniform",
    "Geom3d.C95_uniform_overshoots"
   ],
   "note": "About Lean Float (IEEE binary64). C95_uniform_overshoots is a kernel-evaluated witness."
  },
  {
   "property": "C96",
   "status": "proved",
   "theorems": [
    "Geom3d.C96_normals"
   ],
   "note": "Over the reals, from C60."
  },
  {
   "property": "C97",
   "status": "proved",
   "theorems": [
    "Geom3d.C97_apex",
    "Geom3d.C97_new_vertices"
   ],
   "note": "C97_apex law-free, C97_new_vertices over the reals."
  },
  {
   "property": "C98",
   "status": "proved",
   "theorems": [
    "Geom3d.C98_jump",
    "Geom3d.C98_jump_limit",
    "Geom3d.C98_bspline",
    "Geom3d.C98_float",
    "Geom3d.C98_line"
   ],
   "note": "Over the reals for every draw; C98_float is binary64 for the draw 0."
  },
  {
   "property": "C99",
   "status": "proved",
   "theorems": [
    "Geom3d.C99_basis",
    "Geom3d.C99_sum",
    "Geom3d.C99_end",
    "Geom3d.C99_start_not_exact",
    "Geom3d.C99_tiny_span"
   ],
   "note": "Binary64 with all roundings, against the reals."
  }
 ]
}
