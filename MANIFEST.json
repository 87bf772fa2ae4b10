{
 "claims": [
  {
   "property": "C01",
   "status": "proved",
   "theorems": [
    "Planar.C01_vector_space",
    "Planar.C01_components",
    "Planar.C01_div_scalar",
    "Planar.C01_div_vector",
    "Planar.C01_rdiv",
    "Planar.C01_floordiv"
   ],
   "note": ""
  },
  {
   "property": "C02",
   "status": "proved",
   "theorems": [
    "Planar.C02_dot_cross",
    "Planar.C02_length"
   ],
   "note": ""
  },
  {
   "property": "C03",
   "status": "proved",
   "theorems": [
    "Planar.C03_normalized",
    "Planar.C03_is_null"
   ],
   "note": "Over the reals, every vector and every EPSILON >= 0."
  },
  {
   "property": "C04",
   "status": "proved",
   "theorems": [
    "Planar.C04_scaled_to",
    "Planar.C04_clamped_error",
    "Planar.C04_clamped",
    "Planar.C04_clamped_one_bound",
    "Planar.C04_negative_min_flips"
   ],
   "note": "The statement is for 0 <= lo; C04_negative_min_flips records that a negative lower bound turns a short vector round."
  },
  {
   "property": "C05",
   "status": "proved",
   "theorems": [
    "Planar.C05_project"
   ],
   "note": ""
  },
  {
   "property": "C06",
   "status": "proved",
   "theorems": [
    "Planar.C06_reflect"
   ],
   "note": ""
  },
  {
   "property": "C07",
   "status": "proved",
   "theorems": [
    "Planar.C07_dispatch",
    "Planar.C07_order",
    "Planar.C07_eq_ne"
   ],
   "note": ""
  },
  {
   "property": "C08",
   "status": "proved",
   "theorems": [
    "Planar.C08_cos_sin_deg",
    "Planar.C08_rotated",
    "Planar.C08_right_angles",
    "Planar.C08_polar"
   ],
   "note": ""
  },
  {
   "property": "C09",
   "status": "partial",
   "theorems": [
    "Planar.C09_angle_to_exact_partial",
    "Planar.C09_angle",
    "Planar.C09_angle_to_partial",
    "Planar.C09_angle_to_range_violated"
   ],
   "note": "The unchanged code violates the statement as it stands: angle_to can leave (-180,180] (C09_angle_to_range_violated; C09_angle_to_exact_partial says for exactly which pairs). Proved: everything about angle, and that rotating by angle_to gives the direction and that its value is congruent mod 360 to the right one. Missing: only the false range claim."
  },
  {
   "property": "C10",
   "status": "proved",
   "theorems": [
    "Planar.C10_lerp",
    "Planar.C10_lerp_between"
   ],
   "note": ""
  },
  {
   "property": "C11",
   "status": "proved",
   "theorems": [
    "Planar.C11_box_distance",
    "Planar.C11_line_distance",
    "Planar.C11_ray_distance",
    "Planar.C11_segment_distance",
    "Planar.C11_seq",
    "Planar.C11_affine",
    "Planar.C11_box",
    "Planar.C11_line",
    "Planar.C11_ray",
    "Planar.C11_segment",
    "Planar.C11_vec2",
    "Planar.C11_vec2_distance"
   ],
   "note": ""
  },
  {
   "property": "C12",
   "status": "proved",
   "theorems": [
    "Planar.C12_monoid"
   ],
   "note": ""
  },
  {
   "property": "C13",
   "status": "proved",
   "theorems": [
    "Planar.C13_invert"
   ],
   "note": ""
  },
  {
   "property": "C14",
   "status": "partial",
   "theorems": [
    "Planar.C14_compose_partial",
    "Planar.C14_compose_classes_partial",
    "Planar.C14_violated",
    "Planar.C14_reversed_partial",
    "Planar.C14_in_place_partial"
   ],
   "note": "The unchanged code violates the statement as it stands (C14_violated): points are multiplied by the transposed linear part. C14_compose_partial is the exact iff (for all A, B); C14_compose_classes_partial names the usual classes for which it holds; C14_reversed_partial says when the factors apply from left to right instead (always without translations), C14_in_place_partial draws the consequence for polygons multiplied in place."
  },
  {
   "property": "C15",
   "status": "partial",
   "theorems": [
    "Planar.C15_inverse_partial",
    "Planar.C15_inverse_linear_partial",
    "Planar.C15_violated"
   ],
   "note": "The unchanged code violates the statement as it stands (C15_violated), same cause as C14. C15_inverse_partial is the exact iff; C15_inverse_linear_partial: always for transforms without translation."
  },
  {
   "property": "C16",
   "status": "proved",
   "theorems": [
    "Planar.C16_affine",
    "Planar.C16_parallel",
    "Planar.C16_columns"
   ],
   "note": ""
  },
  {
   "property": "C17",
   "status": "proved",
   "theorems": [
    "Planar.C17_translation_scale",
    "Planar.C17_rotation",
    "Planar.C17_shear"
   ],
   "note": ""
  },
  {
   "property": "C18",
   "status": "partial",
   "theorems": [
    "Planar.C18_orthonormal_partial",
    "Planar.C18_orthonormal_exact_partial",
    "Planar.C18_conformal_violated",
    "Planar.C18_conformal_equal_columns_partial",
    "Planar.C18_rectilinear_partial",
    "Planar.C18_degenerate",
    "Planar.C18_conformal_exact_partial",
    "Planar.C18_orthonormal_iff",
    "Planar.C18_rectilinear_iff",
    "Planar.C18_identity"
   ],
   "note": "The unchanged code violates the statement as it stands for is_conformal only (C18_conformal_violated: non-uniform scales; C18_conformal_exact_partial: all angles are preserved iff the flag holds for every EPSILON and both columns are equally long). The orthonormal and rectilinear flags are tolerance tests; the theorems give the EPSILON bound, and C18_orthonormal_iff / C18_rectilinear_iff characterise the transforms that have the flag for every EPSILON. is_degenerate and is_identity are exact."
  },
  {
   "property": "C19",
   "status": "proved",
   "theorems": [
    "Planar.C19_itransform",
    "Planar.C19_line",
    "Planar.C19_ray",
    "Planar.C19_segment",
    "Planar.C19_polygon",
    "Planar.C19_sequences"
   ],
   "note": ""
  },
  {
   "property": "C20",
   "status": "proved",
   "theorems": [
    "Planar.C20_stable",
    "Planar.C20_fresh",
    "Planar.C20_determinant",
    "Planar.C20_set_epsilon_stale",
    "Planar.C20_invert_any",
    "Planar.C20_invert"
   ],
   "note": "State machine of one object's cache with arbitrary interleavings of reads and set_epsilon; C20_set_epsilon_stale is the last sentence of the property."
  },
  {
   "property": "C21",
   "status": "proved",
   "theorems": [
    "Planar.C21_bounding_box",
    "Planar.C21_size"
   ],
   "note": ""
  },
  {
   "property": "C22",
   "status": "proved",
   "theorems": [
    "Planar.C22_from_shapes"
   ],
   "note": ""
  },
  {
   "property": "C23",
   "status": "proved",
   "theorems": [
    "Planar.C23_inside",
    "Planar.C23_no_gaps",
    "Planar.C23_no_double_count",
    "Planar.C23_is_empty"
   ],
   "note": ""
  },
  {
   "property": "C24",
   "status": "proved",
   "theorems": [
    "Planar.C24_center"
   ],
   "note": ""
  },
  {
   "property": "C25",
   "status": "proved",
   "theorems": [
    "Planar.C25_fit_box"
   ],
   "note": ""
  },
  {
   "property": "C26",
   "status": "partial",
   "theorems": [
    "Planar.C26_fit_polygon_partial",
    "Planar.C26_violated",
    "Planar.C26_exact",
    "Planar.C26_degenerate"
   ],
   "note": "The unchanged code violates the statement as it stands (C26_violated): the polygon is scaled about the origin instead of its centre. C26_exact says exactly what fit returns for every polygon and when (iff) the result is inside the frame; C26_degenerate the exceptions."
  },
  {
   "property": "C27",
   "status": "proved",
   "theorems": [
    "Planar.C27_rectilinear",
    "Planar.C27_polygon_contains",
    "Planar.C27_near",
    "Planar.C27_box_contains",
    "Planar.C27_polygon"
   ],
   "note": ""
  },
  {
   "property": "C28",
   "status": "proved",
   "theorems": [
    "Planar.C28_to_polygon"
   ],
   "note": ""
  },
  {
   "property": "C29",
   "status": "partial",
   "theorems": [
    "Planar.C29_vec2array_op",
    "Planar.C29_reads",
    "Planar.C29_history",
    "Planar.C29_constructors",
    "Planar.C29_seq2_length_partial",
    "Planar.C29_seq2_slice_violated",
    "Planar.C29_raw_item",
    "Planar.C29_raw_items",
    "Planar.C29_extend_raw"
   ],
   "note": "Vec2Array part proved in full (C29_vec2array_op, C29_history, C29_reads). The claim 'a Seq2 never changes length' is violated by slice assignment (C29_seq2_slice_violated); C29_seq2_length_partial covers every other mutation."
  },
  {
   "property": "C30",
   "status": "proved",
   "theorems": [
    "Planar.C30_dispatch",
    "Planar.C30_inplace_dispatch",
    "Planar.C30_elementwise",
    "Planar.C30_length_mismatch",
    "Planar.C30_in_place",
    "Planar.C30_division",
    "Planar.C30_division_more",
    "Planar.C30_floordiv"
   ],
   "note": ""
  },
  {
   "property": "C31",
   "status": "partial",
   "theorems": [
    "Planar.C31_shortest",
    "Planar.C31_longest_partial",
    "Planar.C31_longest_violated"
   ],
   "note": "The unchanged code violates the statement as it stands for non-empty arrays of null vectors, where longest() is None (C31_longest_violated). All other cases proved; shortest() proved without restriction."
  },
  {
   "property": "C32",
   "status": "partial",
   "theorems": [
    "Planar.C32_dispatch",
    "Planar.C32_commute_partial",
    "Planar.C32_violated"
   ],
   "note": "The unchanged code violates the statement as it stands for arrays of exactly two elements (C32_violated, for every such array). C32_commute_partial covers every other length."
  },
  {
   "property": "C33",
   "status": "proved",
   "theorems": [
    "Planar.C33_clamp_normalize"
   ],
   "note": ""
  },
  {
   "property": "C34",
   "status": "proved",
   "theorems": [
    "Planar.C34_line_step",
    "Planar.C34_line",
    "Planar.C34_zero_epsilon",
    "Planar.C34_line_assign",
    "Planar.C34_ray_assign",
    "Planar.C34_segment_assign",
    "Planar.C34_ray_step",
    "Planar.C34_ray",
    "Planar.C34_segment_step",
    "Planar.C34_segment"
   ],
   "note": "For EPSILON > 0; C34_zero_epsilon shows that EPSILON = 0 lets a null direction through."
  },
  {
   "property": "C35",
   "status": "proved",
   "theorems": [
    "Planar.C35_distance",
    "Planar.C35_partition",
    "Planar.C35_sides",
    "Planar.C35_reversed"
   ],
   "note": ""
  },
  {
   "property": "C36",
   "status": "proved",
   "theorems": [
    "Planar.C36_project",
    "Planar.C36_reflect"
   ],
   "note": ""
  },
  {
   "property": "C37",
   "status": "proved",
   "theorems": [
    "Planar.C37_new",
    "Planar.C37_from_normal",
    "Planar.C37_from_points",
    "Planar.C37_points",
    "Planar.C37_parallel",
    "Planar.C37_perpendicular"
   ],
   "note": ""
  },
  {
   "property": "C38",
   "status": "proved",
   "theorems": [
    "Planar.C38_distance",
    "Planar.C38_contains",
    "Planar.C38_sides",
    "Planar.C38_sides_meaning",
    "Planar.C38_project",
    "Planar.C38_new",
    "Planar.C38_from_points",
    "Planar.C38_points",
    "Planar.C38_line",
    "Planar.C38_sides_cover"
   ],
   "note": ""
  },
  {
   "property": "C39",
   "status": "partial",
   "theorems": [
    "Planar.C39_distance_partial",
    "Planar.C39_contains_partial",
    "Planar.C39_length_nonneg",
    "Planar.C39_violated"
   ],
   "note": "The unchanged code violates the statement as it stands for segments with negative length, built by from_normal with end < start or by assigning length (C39_violated). C39_distance_partial: every segment with length >= 0; C39_length_nonneg: which histories keep length >= 0."
  },
  {
   "property": "C40",
   "status": "proved",
   "theorems": [
    "Planar.C40_from_normal",
    "Planar.C40_set_vector",
    "Planar.C40_ends_meaning",
    "Planar.C40_new",
    "Planar.C40_set_end",
    "Planar.C40_project",
    "Planar.C40_sides",
    "Planar.C40_sides_meaning",
    "Planar.C40_sides_cover"
   ],
   "note": ""
  },
  {
   "property": "C41",
   "status": "proved",
   "theorems": [
    "Planar.C41_from_points",
    "Planar.C41_empty"
   ],
   "note": ""
  },
  {
   "property": "C42",
   "status": "proved",
   "theorems": [
    "Planar.C42_line",
    "Planar.C42_ray",
    "Planar.C42_segment",
    "Planar.C42_in_place"
   ],
   "note": ""
  },
  {
   "property": "C43",
   "status": "partial",
   "theorems": [
    "Planar.C43_new",
    "Planar.C43_reachable_partial",
    "Planar.C43_length",
    "Planar.C43_violated"
   ],
   "note": "The unchanged code violates the statement as it stands for from_points with fewer than three points and for slice assignment (C43_violated). C43_reachable_partial covers all other constructors and every history; C43_length needs no restriction."
  },
  {
   "property": "C44",
   "status": "proved",
   "theorems": [
    "Planar.C44_fresh",
    "Planar.C44_fresh_new",
    "Planar.C44_reread"
   ],
   "note": "Holds for any number type (no arithmetic laws used), hence verbatim for floats."
  },
  {
   "property": "C45",
   "status": "partial",
   "theorems": [
    "Planar.C45_complete",
    "Planar.C45_iff_partial",
    "Planar.C45_violated"
   ],
   "note": "The unchanged code violates the statement as it stands when the last two vertices coincide (C45_violated). Convex polygons are recognised without restriction (C45_complete); the iff needs the last two vertices to be distinct."
  },
  {
   "property": "C46",
   "status": "partial",
   "theorems": [
    "Planar.C46_sound",
    "Planar.C46_exact_partial",
    "Planar.C46_iff_partial",
    "Planar.C46_violated",
    "Planar.C46_convex",
    "Planar.C46_general_partial"
   ],
   "note": "The unchanged code violates the statement as it stands for overlapping parallel edges, right-end-to-left-end touches, repeated vertices in convex polygons (C46_violated). C46_exact_partial is the exact characterisation of what is found for non-convex polygons; C46_general_partial is the full iff for polygons in general position; C46_convex for convex ones; C46_sound (False is always right) needs no restriction."
  },
  {
   "property": "C47",
   "status": "proved",
   "theorems": [
    "Planar.C47_centroid",
    "Planar.C47_rotate_reverse",
    "Planar.C47_affine",
    "Planar.C47_transformed",
    "Planar.C47_triangle",
    "Planar.C47_cut"
   ],
   "note": ""
  },
  {
   "property": "C48",
   "status": "proved",
   "theorems": [
    "Planar.C48_all",
    "Planar.C48_winding",
    "Planar.C48_winding_new",
    "Planar.C48_invariance"
   ],
   "note": "C48_all covers triangles too (for triangles under the condition of C50)."
  },
  {
   "property": "C49",
   "status": "proved",
   "theorems": [
    "Planar.C49_all",
    "Planar.C49_history",
    "Planar.C49_in_hull",
    "Planar.C49_halfplane",
    "Planar.C49_disk"
   ],
   "note": ""
  },
  {
   "property": "C50",
   "status": "partial",
   "theorems": [
    "Planar.C50_triangle_partial",
    "Planar.C50_tuple_violated",
    "Planar.C50_tiny_violated"
   ],
   "note": "The unchanged code violates the statement as it stands for tuple points (C50_tuple_violated) and triangles within EPSILON (C50_tiny_violated). C50_triangle_partial: every other triangle and every Vec2 point, boundary included."
  },
  {
   "property": "C51",
   "status": "partial",
   "theorems": [
    "Planar.C51_agree_partial",
    "Planar.C51_declared_partial",
    "Planar.C51_sound",
    "Planar.C51_violated",
    "Planar.C51_exact_partial",
    "Planar.C51_swapped_violated",
    "Planar.C51_declared_exact_partial",
    "Planar.C51_rectangle_violated"
   ],
   "note": "The unchanged code violates the statement as it stands (C51_violated, C51_rectangle_violated, C51_swapped_violated). C51_exact_partial/C51_declared_exact_partial: reading (declaring) is_convex changes no answer if and only if the convex polygon is not Swapped (Spec/Swapped.lean: which of the extreme vertices coincide and in which order they are listed); Swapped polygons then contain no point at all. C51_sound: True is only ever answered where it was before."
  },
  {
   "property": "C52",
   "status": "partial",
   "theorems": [
    "Planar.C52_changes_partial",
    "Planar.C52_raises_violated",
    "Planar.C52_triangle",
    "Planar.C52_no_raise_partial",
    "Planar.C52_history_partial",
    "Planar.C52_violated",
    "Planar.C52_history_exact_partial"
   ],
   "note": "The unchanged code violates the statement as it stands: TypeError after centroid of a non-simple polygon was read (C52_violated), and C51. C52_raises_violated: exactly which reads make it raise. C52_changes_partial: any history, with assignments. Triangles proved in full (C52_triangle); C52_history_exact_partial: for quadrilaterals and simple polygons, independence of every history of reads holds if and only if the polygon is not convex, flat or not Swapped."
  },
  {
   "property": "C53",
   "status": "partial",
   "theorems": [
    "Planar.C53_regular",
    "Planar.C53_star_outer",
    "Planar.C53_star_mixed",
    "Planar.C53_star_equal",
    "Planar.C53_star_inner_partial",
    "Planar.C53_star_violated",
    "Planar.C53_regular_exact",
    "Planar.C53_regular_sound",
    "Planar.C53_regular_triangle",
    "Planar.C53_star_equal_exact",
    "Planar.C53_star_exact_partial",
    "Planar.C53_square_partial",
    "Planar.C53_square_violated",
    "Planar.C53_star_square_partial",
    "Planar.C53_star_zero",
    "Planar.C53_star_iff_partial"
   ],
   "note": "The unchanged code violates the statement as it stands for blunt stars and for squares whose first vertex is exactly lower left of the centre. Everything is exactly characterised: regular polygons with n>=5 in full (C53_regular_exact), n=3 in C53_regular_triangle, n=4 in C53_square_partial/C53_square_violated; stars with three or more peaks in C53_star_iff_partial (wrong exactly for different radii of one sign with smaller > cos(180/n) * larger), with two peaks in C53_star_exact_partial, C53_star_mixed and C53_star_square_partial."
  },
  {
   "property": "C54",
   "status": "proved",
   "theorems": [
    "Planar.C54_generic_all",
    "Planar.C54_disjoint_all",
    "Planar.C54_partition_all",
    "Planar.C54_generic_point",
    "Planar.C54_disjoint",
    "Planar.C54_chord",
    "Planar.C54_partition"
   ],
   "note": "The ..._all theorems are about contains_point of arbitrary polygons, the others about the winding number."
  },
  {
   "property": "C55",
   "status": "partial",
   "theorems": [
    "Planar.C55_equivalence",
    "Planar.C55_complete",
    "Planar.C55_sound_partial",
    "Planar.C55_distinct",
    "Planar.C55_exact_partial",
    "Planar.C55_violated"
   ],
   "note": "The unchanged code violates the statement as it stands for polygons with repeated edges (C55_violated). C55_exact_partial says for all polygons exactly what == compares. Equivalence relation, negation and completeness proved for all polygons; soundness for polygons without repeated edges; C55_distinct is the full iff for distinct vertices."
  },
  {
   "property": "C56",
   "status": "proved",
   "theorems": [
    "Planar.C56_deepcopy_contains",
    "Planar.C56_deepcopy_differs",
    "Planar.C56_equal",
    "Planar.C56_answers",
    "Planar.C56_tangents",
    "Planar.C56_independent"
   ],
   "note": ""
  },
  {
   "property": "C57",
   "status": "partial",
   "theorems": [
    "Planar.C57_doubles_violated",
    "Planar.C57_vertices",
    "Planar.C57_total",
    "Planar.C57_encloses_partial",
    "Planar.C57_small",
    "Planar.C57_copy",
    "Planar.C57_violated",
    "Planar.C57_caps_partial",
    "Planar.C57_wide_partial",
    "Planar.C57_nodup",
    "Planar.C57_again",
    "Planar.C57_convex",
    "Planar.C57_exact_partial",
    "Planar.C57_line",
    "Planar.C57_few",
    "Planar.C57_vertical",
    "Planar.C57_vertical_violated"
   ],
   "note": "The unchanged code violates the statement as it stands: the sorted scan can lose a point (C57_violated, with whole numbers in double precision C57_doubles_violated), and so do points on a vertical line (C57_vertical_violated; two of them make a polygon with a repeated vertex instead of a ValueError). Other lines: C57_line, C57_few. Vertices-from-input and success proved for all inputs and all set iteration orders; C57_convex: convex, clockwise and not flat for all points not on a line, even when points are lost; enclosure: C57_exact_partial says exactly when it holds (no sorted scan that is made loses one of its own points), C57_encloses_partial gives a geometric condition on the scans, C57_caps_partial one on the points alone (Spec/HullCaps: the points beyond the first two segments on either side are between their perpendiculars), C57_wide_partial a simpler one (the extremes are farthest apart); none is needed for at most seven points."
  },
  {
   "property": "C58",
   "status": "partial",
   "theorems": [
    "Planar.C58_regular_partial",
    "Planar.C58_vertices",
    "Planar.C58_small",
    "Planar.C58_tangents_partial",
    "Planar.C58_violated"
   ],
   "note": "The unchanged code violates the statement as it stands for the binary search used above 20 vertices (C58_violated). No exception and vertices-of-the-polygon proved for all polygons and points; tangency for all polygons up to 20 vertices, above that under the conditions shown necessary."
  },
  {
   "property": "C59",
   "status": "partial",
   "theorems": [
    "Planar.C59_regular",
    "Planar.C59_regular_centroid",
    "Planar.C59_regular_few_partial",
    "Planar.C59_zero_violated",
    "Planar.C59_star",
    "Planar.C59_star_centroid",
    "Planar.C59_star_few",
    "Planar.C59_regular_shape",
    "Planar.C59_star_shape",
    "Planar.C59_star_convex_violated",
    "Planar.C59_star_simple_violated",
    "Planar.C59_star_convex_iff"
   ],
   "note": "Everything is proved except 'fewer than 3 vertices raise ValueError', which is violated for a count of zero (ZeroDivisionError, C59_zero_violated). Additional findings about the flags of stars: C59_star_convex_violated, C59_star_simple_violated; C59_star_convex_iff says exactly which stars are convex."
  },
  {
   "property": "C60",
   "status": "partial",
   "theorems": [
    "Planar.C60_vec",
    "Planar.C60_affine",
    "Planar.C60_affine_arguments",
    "Planar.C60_box",
    "Planar.C60_seq",
    "Planar.C60_polygon",
    "Planar.C60_box_built",
    "Planar.C60_line",
    "Planar.C60_ray",
    "Planar.C60_segment_partial",
    "Planar.C60_segment_violated",
    "Planar.C60_polygon_all",
    "Planar.C60_triangle_flags"
   ],
   "note": "The unchanged code violates the statement as it stands for segments with 0 < length <= EPSILON, whose printed call raises ValueError (C60_segment_violated). All other classes, and all other segments, proved. Number formatting is not modelled."
  },
  {
   "property": "C61",
   "status": "proved",
   "theorems": [
    "Planar.C61_interior_triangle",
    "Planar.C61_region",
    "Planar.C61_region_triangle",
    "Planar.C61_interior",
    "Planar.C61_exterior"
   ],
   "note": ""
  },
  {
   "property": "C62",
   "status": "proved",
   "theorems": [
    "Planar.C62_upright"
   ],
   "note": ""
  },
  {
   "property": "C63",
   "status": "proved",
   "theorems": [
    "Planar.C63_contains_false",
    "Planar.C63_contains_correct",
    "Planar.C63_correct",
    "Planar.C63_declared",
    "Planar.C63_forgotten",
    "Planar.C63_simple_alone"
   ],
   "note": ""
  },
  {
   "property": "C64",
   "status": "proved",
   "theorems": [
    "Planar.C64_known",
    "Planar.C64_unknown",
    "Planar.C64_stays",
    "Planar.C64_centroid"
   ],
   "note": ""
  },
  {
   "property": "C65",
   "status": "proved",
   "theorems": [
    "Planar.C65_winding",
    "Planar.C65_contains",
    "Planar.C65_boundary"
   ],
   "note": ""
  },
  {
   "property": "C66",
   "status": "proved",
   "theorems": [
    "Planar.C66_convex_image",
    "Planar.C66_is_convex",
    "Planar.C66_is_simple",
    "Planar.C66_touching"
   ],
   "note": ""
  },
  {
   "property": "C67",
   "status": "proved",
   "theorems": [
    "Planar.C67_transform",
    "Planar.C67_contains",
    "Planar.C67_bounding_box",
    "Planar.C67_properties",
    "Planar.C67_repeated"
   ],
   "note": ""
  },
  {
   "property": "C68",
   "status": "proved",
   "theorems": [
    "Planar.C68_vectors",
    "Planar.C68_products",
    "Planar.C68_transforms",
    "Planar.C68_lerp",
    "Planar.C68_tolerance",
    "Planar.C68_rounding_visible"
   ],
   "note": "For any arithmetic with the laws of Spec/Rounded.lean (RoundedArith), which IEEE rounding to nearest even is proved to satisfy; without overflow, underflow, NaN. C68_rounding_visible shows laws that fail."
  },
  {
   "property": "C69",
   "status": "partial",
   "theorems": [
    "Planar.C69_inside_box_partial",
    "Planar.C69_violated"
   ],
   "note": "Violated by quadrilaterals on the left side (C69_violated); proved: above, below and right for all, everything for five or more vertices."
  },
  {
   "property": "C70",
   "status": "partial",
   "theorems": [
    "Planar.C70_queries",
    "Planar.C70_hull",
    "Planar.C70_winding",
    "Planar.C70_small_hull",
    "Planar.C70_triangle_partial",
    "Planar.C70_violated",
    "Planar.C70_hull_convex"
   ],
   "note": "Violated by triangles on the line through the lowest and highest vertex (C70_violated); proved for all polygons with four or more vertices, hulls, and triangles off that line. Histories without centroid reads and in-place transforms. C70_hull_convex: hulls of any number of grid points are convex and clockwise in double precision."
  },
  {
   "property": "C71",
   "status": "partial",
   "theorems": [
    "Planar.C71_class_partial",
    "Planar.C71_items",
    "Planar.C71_transform_either_side",
    "Planar.C71_vectors",
    "Planar.C71_accidents",
    "Planar.C71_violated",
    "Planar.C71_in_place_new",
    "Planar.C71_in_place_array",
    "Planar.C71_in_place_seq"
   ],
   "note": "Violated where a sequence of exactly two vectors unpacks like a vector and where tuples concatenate (C71_violated; all such cases exactly in C71_accidents). C71_class_partial covers every other pair of operands; the items, transform and in-place theorems need only the exclusions they state."
  },
  {
   "property": "C72",
   "status": "partial",
   "theorems": [
    "Planar.C72_values_partial",
    "Planar.C72_deterministic",
    "Planar.C72_independent",
    "Planar.C72_class",
    "Planar.C72_copies",
    "Planar.C72_extend",
    "Planar.C72_extend_self_violated",
    "Planar.C72_ends"
   ],
   "note": "Violated by a.extend(a), which never ends for an array with items (C72_extend_self_violated). C72_values_partial is a refinement: what is seen of a heap with shared list references equals what a machine of independent values shows; in-place operators that leave non-vectors in an array (C71) are excluded. Cached attributes of polygons are not in this heap (C44, C52)."
  },
  {
   "property": "C73",
   "status": "partial",
   "theorems": [
    "Planar.C73_symmetric",
    "Planar.C73_reflexive",
    "Planar.C73_ne",
    "Planar.C73_no_raise_partial",
    "Planar.C73_raises_violated",
    "Planar.C73_hash_partial",
    "Planar.C73_dict",
    "Planar.C73_transitive_violated",
    "Planar.C73_hash_violated",
    "Planar.C73_classes"
   ],
   "note": "Violated: comparing a vector with a dict raises KeyError (C73_raises_violated), a vector equals a range or bytes object with another hash (C73_hash_violated), == is not transitive through lists (C73_transitive_violated). Proved without restriction: reflexive, symmetric, != is the negation; for vectors, transforms, numbers and nested tuples: transitive, hash-consistent, dict lookup."
  },
  {
   "property": "C74",
   "status": "partial",
   "theorems": [
    "Planar.C74_tangents",
    "Planar.C74_bounding_box",
    "Planar.C74_centroid",
    "Planar.C74_contains_plain",
    "Planar.C74_contains_partial",
    "Planar.C74_hull_partial",
    "Planar.C74_hull_violated",
    "Planar.C74_centroid_violated",
    "Planar.C74_nan_violated"
   ],
   "note": "Violated in three ways: in IEEE double arithmetic convex_hull of four points with integer coordinates below 2^29 raises UnboundLocalError (C74_hull_violated), contains_point raises TypeError after centroid of a self-crossing pentagon was read (C74_centroid_violated), and IndexError with a NaN vertex in a polygon declared convex (C74_nan_violated). Proved with no law of arithmetic at all: tangents_to_point, bounding_box, centroid, the only exceptions of convex_hull, and that contains_point raises exactly in the second case unless a height is NaN (infinities and NaNs in intermediate results allowed)."
  },
  {
   "property": "C75",
   "status": "proved",
   "theorems": [
    "Planar.C75_queries",
    "Planar.C75_changed",
    "Planar.C75_winding",
    "Planar.C75_tiles",
    "Planar.C75_slanted_contrast",
    "Planar.C75_tiny_contrast"
   ],
   "note": "Proved for every rounding, under the hypothesis that it does not underflow or that no edge is shorter than one unit; Double is IEEE binary64 with gradual underflow and overflow to infinity (without NaN: with coordinates below 2^1022 no difference overflows, and no NaN occurs). C75_tiny_contrast shows that one of the two is needed: a square of side 2^-600 does not contain its own centre in doubles. C75_slanted_contrast shows that horizontal and vertical edges are needed: with a slanted shared edge, in double arithmetic, both parts or neither part contain a point."
  },
  {
   "property": "C76",
   "status": "proved",
   "theorems": [
    "Planar.C76_box",
    "Planar.C76_box_general",
    "Planar.C76_tangents",
    "Planar.C76_tangents_mirror",
    "Planar.C76_centroid"
   ],
   "note": ""
  },
  {
   "property": "C77",
   "status": "proved",
   "theorems": [
    "Planar.C77_queries",
    "Planar.C77_convex",
    "Planar.C77_tangents",
    "Planar.C77_contains",
    "Planar.C77_margin",
    "Planar.C77_triangle",
    "Planar.C77_triangle_margin"
   ],
   "note": ""
  },
  {
   "property": "C78",
   "status": "proved",
   "theorems": [
    "Planar.C78_line_from_normal",
    "Planar.C78_segment_from_normal",
    "Planar.C78_line_points",
    "Planar.C78_line_contains_points",
    "Planar.C78_normalized",
    "Planar.C78_direction",
    "Planar.C78_normal",
    "Planar.C78_line_distance",
    "Planar.C78_line_sides",
    "Planar.C78_ray",
    "Planar.C78_segment",
    "Planar.C78_constructors",
    "Planar.C78_parallel",
    "Planar.C78_perpendicular",
    "Planar.C78_segment_parts",
    "Planar.C78_ray_line",
    "Planar.C78_segment_line",
    "Planar.C78_line_from_points",
    "Planar.C78_ray_from_points",
    "Planar.C78_from_points_same",
    "Planar.C78_segment_from_points",
    "Planar.C78_segment_set_vector",
    "Planar.C78_segment_set_end",
    "Planar.C78_ray_sides",
    "Planar.C78_segment_sides"
   ],
   "note": "Double is IEEE binary64 with gradual underflow and overflow to infinity (NaN is not modelled; under the hypotheses none occurs in what is claimed). What `** 0.5` returns is assumed to be within one unit in the last place and infinite for infinity (class SqrtOk, shown satisfiable by sqrtOk_exists). `x ** 2` of a number is modelled as x * x: CPython raises OverflowError where that overflows, which for EPSILON <= 1/2 it does not. Finding: normalized() of a vector of length 2^513 (2.7e154) or more is the null vector, so a line with that direction raises ValueError although the vector is far from null."
  },
  {
   "property": "C79",
   "status": "proved",
   "theorems": [
    "Planar.C79_apply",
    "Planar.C79_vertices",
    "Planar.C79_compose",
    "Planar.C79_determinant",
    "Planar.C79_inverse_raises",
    "Planar.C79_inverse",
    "Planar.C79_flags",
    "Planar.C79_conformal",
    "Planar.C79_orthonormal",
    "Planar.C79_product_apply",
    "Planar.C79_twice",
    "Planar.C79_composed_linear",
    "Planar.C79_composed",
    "Planar.C79_composed_scales",
    "Planar.C79_composed_vertices",
    "Planar.C79_inverse_product",
    "Planar.C79_round_trip",
    "Planar.C79_round_trip_vertices"
   ],
   "note": ""
  },
  {
   "property": "C80",
   "status": "proved",
   "theorems": [
    "Planar.C80_products",
    "Planar.C80_order",
    "Planar.C80_null",
    "Planar.C80_lerp",
    "Planar.C80_lerp_ends",
    "Planar.C80_project",
    "Planar.C80_reflect",
    "Planar.C80_distance",
    "Planar.C80_length",
    "Planar.C80_scaled_to",
    "Planar.C80_clamped",
    "Planar.C80_clamped_overflow"
   ],
   "note": ""
  },
  {
   "property": "C81",
   "status": "proved",
   "theorems": [
    "Planar.C81_polar",
    "Planar.C81_rotated",
    "Planar.C81_right_angles",
    "Planar.C81_angle",
    "Planar.C81_rotation",
    "Planar.C81_shear",
    "Planar.C81_regular",
    "Planar.C81_star"
   ],
   "note": ""
  },
  {
   "property": "C82",
   "status": "proved",
   "theorems": [
    "Planar.C82_regular",
    "Planar.C82_contains",
    "Planar.C82_transformed",
    "Planar.C82_convex",
    "Planar.C82_star"
   ],
   "note": ""
  },
  {
   "property": "C83",
   "status": "proved",
   "theorems": [
    "Planar.C83_encloses",
    "Planar.C83_transform",
    "Planar.C83_fit_raises",
    "Planar.C83_from_center",
    "Planar.C83_inflate",
    "Planar.C83_center",
    "Planar.C83_fit"
   ],
   "note": ""
  },
  {
   "property": "C84",
   "status": "proved",
   "theorems": [
    "Planar.C84_centroid",
    "Planar.C84_convex",
    "Planar.C84_thin_tiny"
   ],
   "note": ""
  },
  {
   "property": "C85",
   "status": "proved",
   "theorems": [
    "Planar.C85_looser",
    "Planar.C85_looser_lines",
    "Planar.C85_lines",
    "Planar.C85_from_points",
    "Planar.C85_polygon",
    "Planar.C85_reads",
    "Planar.C85_triangle",
    "Planar.C85_stale"
   ],
   "note": ""
  },
  {
   "property": "C86",
   "status": "partial",
   "theorems": [
    "Planar.C86_same_answers",
    "Planar.C86_triangle",
    "Planar.C86_radial",
    "Planar.C86_contains_linear",
    "Planar.C86_bounding_box",
    "Planar.C86_is_convex",
    "Planar.C86_is_simple",
    "Planar.C86_centroid",
    "Planar.C86_contains_declared",
    "Planar.C86_contains_regular",
    "Planar.C86_violated",
    "Planar.C86_contains_convex_partial"
   ],
   "note": "Violated for deep copies of polygons declared convex (C86_violated: they go through all vertices for ever, although is_convex is known to be True) and for flat convex polygons (example). Proved: the linear bound for every object, the logarithmic one for polygons declared convex, regular ones, and undeclared ones once is_convex is known and True and the polygon is not flat; the bounds for the other properties. The `expected' O(n log n) of is_simple is not a statement about all inputs and is not treated."
  },
  {
   "property": "C87",
   "status": "partial",
   "theorems": [
    "Planar.C87_same_answers",
    "Planar.C87_linear",
    "Planar.C87_declared",
    "Planar.C87_fast_partial",
    "Planar.C87_violated"
   ],
   "note": "Violated: polygons declared convex (Polygon(vs, is_convex=True), hulls) always take n steps (C87_declared), and for every n > 20 there are a strictly convex polygon and an exterior point for which the search takes at least n steps (C87_violated). Proved: 5n + 2 for every object and point, n for up to 20 vertices, 2 ceil(log2 n) for the remaining convex polygons and exterior points off the critical lines."
  },
  {
   "property": "C88",
   "status": "proved",
   "theorems": [
    "Planar.C88_same_answers",
    "Planar.C88_worst_case"
   ],
   "note": "Sorting m items is charged m (log2 m + 1) steps, set and dict operations a constant: the running time of CPython's own data structures is trusted. The `expected' O(n log h) is not a statement about all inputs and is not treated."
  },
  {
   "property": "C89",
   "status": "proved",
   "theorems": [
    "Planar.C89_flags",
    "Planar.C89_contains",
    "Planar.C89_inside",
    "Planar.C89_triangle"
   ],
   "note": "Exact arithmetic. Points on a line: C57_line, C57_vertical_violated. Triangles with vertices closer than EPSILON: C50."
  },
  {
   "property": "C90",
   "status": "partial",
   "theorems": [
    "Planar.C90_doubles_partial",
    "Planar.C90_region_partial",
    "Planar.C90_corners_partial",
    "Planar.C90_same_partial",
    "Planar.C90_small",
    "Planar.C90_collinear_violated",
    "Planar.C90_violated"
   ],
   "note": "The unchanged code violates the statement as it stands: reversing a list of eight points in general position gives a hull of another region (C90_violated: points are lost, C57). Partial: under the hypothesis that neither hull has lost a point (C57_exact_partial, C57_caps_partial and C57_small say when); C90_small needs none for at most seven points. With three points on a line only the region is the same: C90_collinear_violated. Exact arithmetic; C90_doubles_partial: in double precision on a grid."
  },
  {
   "property": "C91",
   "status": "partial",
   "theorems": [
    "Planar.C91_bounding_box_partial",
    "Planar.C91_width",
    "Planar.C91_transform_partial",
    "Planar.C91_again_partial",
    "Planar.C91_violated",
    "Planar.C91_again_violated"
   ],
   "note": "The unchanged code violates the statement as it stands: the highest of eight points is lost, so that the box is too low and the hull of the mirrored points is not the mirrored hull (C91_violated); the hull of the eight vertices of a (correct, convex) hull has six vertices (C91_again_violated). Partial: under the hypothesis that the hulls have lost no point (C57_exact_partial, C57_caps_partial and C57_small say when). Exact arithmetic."
  },
  {
   "property": "C92",
   "status": "proved",
   "theorems": [
    "Planar.C92_normalized",
    "Planar.C92_project",
    "Planar.C92_clamped",
    "Planar.C92_invert",
    "Planar.C92_box_points",
    "Planar.C92_box_total",
    "Planar.C92_fit",
    "Planar.C92_fit_polygon",
    "Planar.C92_line",
    "Planar.C92_ray",
    "Planar.C92_segment",
    "Planar.C92_line_kept",
    "Planar.C92_ray_kept",
    "Planar.C92_segment_kept",
    "Planar.C92_line_project",
    "Planar.C92_positive",
    "Planar.C92_positive_nan",
    "Planar.C92_needs_tolerance"
   ],
   "note": "No law of arithmetic; only that what equals zero exceeds neither EPSILON nor its square and is below EPSILON in magnitude (C92_positive: every positive EPSILON). Int operands too large for a float and the ValueError of math.tan(inf) in Affine.shear are outside the model. C92_needs_tolerance: EPSILON 0 or negative."
  },
  {
   "property": "C93",
   "status": "partial",
   "theorems": [
    "Planar.C93_square_partial",
    "Planar.C93_real",
    "Planar.C93_violated"
   ],
   "note": "The unchanged code violates the statement as it stands (C93_violated). C93_square_partial: after any history, the last call leaves both consistent if it does not raise, and it raises exactly if the square overflows."
  },
  {
   "property": "C94",
   "status": "proved",
   "theorems": [
    "Planar.C94_line_project",
    "Planar.C94_line_reflect",
    "Planar.C94_ray_project",
    "Planar.C94_segment_project",
    "Planar.C94_nearest"
   ],
   "note": "Double is binary64 without NaN, with infinity as a saturating value; math.sqrt is assumed correctly rounded up to an ulp (SqrtOk). A segment whose vector is shorter than 2^-490 may get the length 0; for those only the bound with EPSILON is proved."
  },
  {
   "property": "C95",
   "status": "partial",
   "theorems": [
    "Planar.C95_ray_partial",
    "Planar.C95_line_partial",
    "Planar.C95_segment_partial",
    "Planar.C95_violated",
    "Planar.C95_line_violated"
   ],
   "note": "The unchanged code violates the statement as it stands: a line or ray is transformed through a point and that point plus its unit direction, and from coordinates of 2^56 on the two are the same double, so that every transform raises ValueError (C95_violated, C95_line_violated). Partial: under the hypothesis that the transformed unit direction is longer than EPSILON + 2 g (C95_ray_partial, C95_line_partial, C95_segment_partial); T * segment needs 2 g <= EPSILON besides, because from_points checks the end it was given."
  },
  {
   "property": "C96",
   "status": "partial",
   "theorems": [
    "Planar.C96_alone",
    "Planar.C96_wait_free",
    "Planar.C96_always",
    "Planar.C96_any_order_partial",
    "Planar.C96_as_if_in_turn_partial",
    "Planar.C96_interrupted_partial",
    "Planar.C96_after_is_convex_partial",
    "Planar.C96_transform",
    "Planar.C96_race_violated",
    "Planar.C96_interrupted_violated",
    "Planar.C96_unreversed_violated",
    "Planar.C96_permanent_violated"
   ],
   "note": "The unchanged code violates the statement as it stands: polygon.py:241 stores is_convex = True before anything is known, lines 275 and 277 read it again, and 304-316 store lists that 317-320 reverse (C96_race_violated, C96_interrupted_violated, C96_unreversed_violated, C96_permanent_violated). Partial: under the hypothesis that the convexity is known (after one is_convex, C96_after_is_convex_partial) or not needed, every schedule and every interruption is safe (C96_any_order_partial, C96_as_if_in_turn_partial, C96_interrupted_partial). Without any hypothesis: vertices are never changed, bounding_box, tangents of up to 20 vertices, contains_point of triangles and is_convex of convex polygons are right (C96_always), no thread waits (C96_wait_free), and the properties of transforms are safe (C96_transform). C96_alone links the threads to the sequential model."
  },
  {
   "property": "C97",
   "status": "partial",
   "theorems": [
    "Planar.C97_alone_polygon",
    "Planar.C97_stopped",
    "Planar.C97_item",
    "Planar.C97_times",
    "Planar.C97_fresh_partial",
    "Planar.C97_repair",
    "Planar.C97_item_again",
    "Planar.C97_times_again_partial",
    "Planar.C97_alone_sequence",
    "Planar.C97_sequences",
    "Planar.C97_alone_lines",
    "Planar.C97_lines",
    "Planar.C97_setter_again",
    "Planar.C97_stale_violated",
    "Planar.C97_twice_violated",
    "Planar.C97_frame_violated"
   ],
   "note": "The unchanged code violates the statement as it stands: polygon.py:437-439 replaces the vertex before it clears the caches one by one (C97_stale_violated), itransform writes one vertex after the other (C97_twice_violated), line.py:50-51 and 67-68 store direction and normal one after the other (C97_frame_violated). Partial: what an interruption can leave (C97_item, C97_times, C97_sequences, C97_lines) holds without restriction; polygons whose caches are empty stay right at every point (C97_fresh_partial); every interrupted item assignment and setter can be repeated (C97_item_again, C97_setter_again) and every completed assignment repairs the polygon (C97_repair); what a repeated *= gives is C97_times_again_partial."
  },
  {
   "property": "C98",
   "status": "partial",
   "theorems": [
    "Planar.C98_alone",
    "Planar.C98_results_partial",
    "Planar.C98_fresh",
    "Planar.C98_values",
    "Planar.C98_items",
    "Planar.C98_settled",
    "Planar.C98_settled_items",
    "Planar.C98_shared",
    "Planar.C98_repair",
    "Planar.C98_extend",
    "Planar.C98_array_ops",
    "Planar.C98_arrays",
    "Planar.C98_stale_violated",
    "Planar.C98_raise_violated",
    "Planar.C98_keyerror_violated",
    "Planar.C98_lost_violated",
    "Planar.C98_array_violated",
    "Planar.C98_frame_violated"
   ],
   "note": "The unchanged code violates the statement as it stands (C98_stale_violated, C98_raise_violated, C98_keyerror_violated, C98_lost_violated, C98_array_violated, C98_frame_violated). Proved for all schedules: threads that only assign leave no stale cache (C98_fresh) and only old or new values (C98_values, C98_items), array.extend loses nothing (C98_extend), operations that use the list once are linearizable (C98_arrays, C98_array_ops). Partial: KeyError is possible, on triangles with a cached closure and nowhere else (C98_results_partial); even then, when all have ended, one has succeeded and no stale cache is left (C98_settled, C98_settled_items). With reading threads beside them: vertices have old or new values and the next completed assignment repairs the polygon (C98_repair). C98_alone and C98_shared link the threads to the sequential model."
  },
  {
   "property": "C99",
   "status": "proved",
   "theorems": [
    "Planar.C99_values",
    "Planar.C99_len",
    "Planar.C99_undisturbed",
    "Planar.C99_ends",
    "Planar.C99_append"
   ],
   "note": "C99_values is the full equivalence of the heap model, in which an iterator refers to a list object, with a machine without a heap in which an iterator follows an object until its items are replaced at once. C99_undisturbed, C99_ends, C99_append and C99_len are the statements a user relies on."
  }
 ]
}