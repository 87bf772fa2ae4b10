{
 "C09": "The unchanged code violates the statement as it stands: angle_to can leave (-180,180] (C09_angle_to_range_violated; C09_angle_to_exact_partial says for exactly which pairs). Proved: everything about angle, and that rotating by angle_to gives the direction and that its value is congruent mod 360 to the right one. Missing: only the false range claim.",
 "C14": "The unchanged code violates the statement as it stands (C14_violated): points are multiplied by the transposed linear part. C14_compose_partial is the exact iff (for all A, B); C14_compose_classes_partial names the usual classes for which it holds; C14_reversed_partial says when the factors apply from left to right instead (always without translations), C14_in_place_partial draws the consequence for polygons multiplied in place.",
 "C15": "The unchanged code violates the statement as it stands (C15_violated), same cause as C14. C15_inverse_partial is the exact iff; C15_inverse_linear_partial: always for transforms without translation.",
 "C18": "The unchanged code violates the statement as it stands for is_conformal only (C18_conformal_violated: non-uniform scales; C18_conformal_exact_partial: all angles are preserved iff the flag holds for every EPSILON and both columns are equally long). The orthonormal and rectilinear flags are tolerance tests; the theorems give the EPSILON bound, and C18_orthonormal_iff / C18_rectilinear_iff characterise the transforms that have the flag for every EPSILON. is_degenerate and is_identity are exact.",
 "C26": "The unchanged code violates the statement as it stands (C26_violated): the polygon is scaled about the origin instead of its centre. C26_exact says exactly what fit returns for every polygon and when (iff) the result is inside the frame; C26_degenerate the exceptions.",
 "C29": "Vec2Array part proved in full (C29_vec2array_op, C29_history, C29_reads). The claim 'a Seq2 never changes length' is violated by slice assignment (C29_seq2_slice_violated); C29_seq2_length_partial covers every other mutation.",
 "C31": "The unchanged code violates the statement as it stands for non-empty arrays of null vectors, where longest() is None (C31_longest_violated). All other cases proved; shortest() proved without restriction.",
 "C32": "The unchanged code violates the statement as it stands for arrays of exactly two elements (C32_violated, for every such array). C32_commute_partial covers every other length.",
 "C39": "The unchanged code violates the statement as it stands for segments with negative length, built by from_normal with end < start or by assigning length (C39_violated). C39_distance_partial: every segment with length >= 0; C39_length_nonneg: which histories keep length >= 0.",
 "C43": "The unchanged code violates the statement as it stands for from_points with fewer than three points and for slice assignment (C43_violated). C43_reachable_partial covers all other constructors and every history; C43_length needs no restriction.",
 "C45": "The unchanged code violates the statement as it stands when the last two vertices coincide (C45_violated). Convex polygons are recognised without restriction (C45_complete); the iff needs the last two vertices to be distinct.",
 "C46": "The unchanged code violates the statement as it stands for overlapping parallel edges, right-end-to-left-end touches, repeated vertices in convex polygons (C46_violated). C46_exact_partial is the exact characterisation of what is found for non-convex polygons; C46_general_partial is the full iff for polygons in general position; C46_convex for convex ones; C46_sound (False is always right) needs no restriction.",
 "C50": "The unchanged code violates the statement as it stands for tuple points (C50_tuple_violated) and triangles within EPSILON (C50_tiny_violated). C50_triangle_partial: every other triangle and every Vec2 point, boundary included.",
 "C51": "The unchanged code violates the statement as it stands (C51_violated, C51_rectangle_violated, C51_swapped_violated). C51_exact_partial/C51_declared_exact_partial: reading (declaring) is_convex changes no answer if and only if the convex polygon is not Swapped (Spec/Swapped.lean: which of the extreme vertices coincide and in which order they are listed); Swapped polygons then contain no point at all. C51_sound: True is only ever answered where it was before.",
 "C52": "The unchanged code violates the statement as it stands: TypeError after centroid of a non-simple polygon was read (C52_violated), and C51. C52_raises_violated: exactly which reads make it raise. C52_changes_partial: any history, with assignments. Triangles proved in full (C52_triangle); C52_history_exact_partial: for quadrilaterals and simple polygons, independence of every history of reads holds if and only if the polygon is not convex, flat or not Swapped.",
 "C53": "The unchanged code violates the statement as it stands for blunt stars and for squares whose first vertex is exactly lower left of the centre. Everything is exactly characterised: regular polygons with n>=5 in full (C53_regular_exact), n=3 in C53_regular_triangle, n=4 in C53_square_partial/C53_square_violated; stars with three or more peaks in C53_star_iff_partial (wrong exactly for different radii of one sign with smaller > cos(180/n) * larger), with two peaks in C53_star_exact_partial, C53_star_mixed and C53_star_square_partial.",
 "C55": "The unchanged code violates the statement as it stands for polygons with repeated edges (C55_violated). C55_exact_partial says for all polygons exactly what == compares. Equivalence relation, negation and completeness proved for all polygons; soundness for polygons without repeated edges; C55_distinct is the full iff for distinct vertices.",
 "C57": "The unchanged code violates the statement as it stands: the sorted scan can lose a point (C57_violated, with whole numbers in double precision C57_doubles_violated), and so do points on a vertical line (C57_vertical_violated; two of them make a polygon with a repeated vertex instead of a ValueError). Other lines: C57_line, C57_few. Vertices-from-input and success proved for all inputs and all set iteration orders; C57_convex: convex, clockwise and not flat for all points not on a line, even when points are lost; enclosure: C57_exact_partial says exactly when it holds (no sorted scan that is made loses one of its own points), C57_encloses_partial gives a geometric condition on the scans, C57_caps_partial one on the points alone (Spec/HullCaps: the points beyond the first two segments on either side are between their perpendiculars), C57_wide_partial a simpler one (the extremes are farthest apart); none is needed for at most seven points.",
 "C58": "The unchanged code violates the statement as it stands for the binary search used above 20 vertices (C58_violated). No exception and vertices-of-the-polygon proved for all polygons and points; tangency for all polygons up to 20 vertices, above that under the conditions shown necessary.",
 "C59": "Everything is proved except 'fewer than 3 vertices raise ValueError', which is violated for a count of zero (ZeroDivisionError, C59_zero_violated). Additional findings about the flags of stars: C59_star_convex_violated, C59_star_simple_violated; C59_star_convex_iff says exactly which stars are convex.",
 "C60": "The unchanged code violates the statement as it stands for segments with 0 < length <= EPSILON, whose printed call raises ValueError (C60_segment_violated). All other classes, and all other segments, proved. Number formatting is not modelled.",
 "C03": "Over the reals, every vector and every EPSILON >= 0.",
 "C04": "The statement is for 0 <= lo; C04_negative_min_flips records that a negative lower bound turns a short vector round.",
 "C20": "State machine of one object's cache with arbitrary interleavings of reads and set_epsilon; C20_set_epsilon_stale is the last sentence of the property.",
 "C34": "For EPSILON > 0; C34_zero_epsilon shows that EPSILON = 0 lets a null direction through.",
 "C44": "Holds for any number type (no arithmetic laws used), hence verbatim for floats.",
 "C48": "C48_all covers triangles too (for triangles under the condition of C50).",
 "C54": "The ..._all theorems are about contains_point of arbitrary polygons, the others about the winding number.",
 "C68": "For any arithmetic with the laws of Spec/Rounded.lean (RoundedArith), which IEEE rounding to nearest even is proved to satisfy; without overflow, underflow, NaN. C68_rounding_visible shows laws that fail.",
 "C69": "Violated by quadrilaterals on the left side (C69_violated); proved: above, below and right for all, everything for five or more vertices.",
 "C70": "Violated by triangles on the line through the lowest and highest vertex (C70_violated); proved for all polygons with four or more vertices, hulls, and triangles off that line. Histories without centroid reads and in-place transforms. C70_hull_convex: hulls of any number of grid points are convex and clockwise in double precision.",
 "C71": "Violated where a sequence of exactly two vectors unpacks like a vector and where tuples concatenate (C71_violated; all such cases exactly in C71_accidents). C71_class_partial covers every other pair of operands; the items, transform and in-place theorems need only the exclusions they state.",
 "C72": "Violated by a.extend(a), which never ends for an array with items (C72_extend_self_violated). C72_values_partial is a refinement: what is seen of a heap with shared list references equals what a machine of independent values shows; in-place operators that leave non-vectors in an array (C71) are excluded. Cached attributes of polygons are not in this heap (C44, C52).",
 "C73": "Violated: comparing a vector with a dict raises KeyError (C73_raises_violated), a vector equals a range or bytes object with another hash (C73_hash_violated), == is not transitive through lists (C73_transitive_violated). Proved without restriction: reflexive, symmetric, != is the negation; for vectors, transforms, numbers and nested tuples: transitive, hash-consistent, dict lookup.",
 "C74": "Violated in three ways: in IEEE double arithmetic convex_hull of four points with integer coordinates below 2^29 raises UnboundLocalError (C74_hull_violated), contains_point raises TypeError after centroid of a self-crossing pentagon was read (C74_centroid_violated), and IndexError with a NaN vertex in a polygon declared convex (C74_nan_violated). Proved with no law of arithmetic at all: tangents_to_point, bounding_box, centroid, the only exceptions of convex_hull, and that contains_point raises exactly in the second case unless a height is NaN (infinities and NaNs in intermediate results allowed).",
 "C75": "Proved for every rounding, under the hypothesis that it does not underflow or that no edge is shorter than one unit; Double is IEEE binary64 with gradual underflow and overflow to infinity (without NaN: with coordinates below 2^1022 no difference overflows, and no NaN occurs). C75_tiny_contrast shows that one of the two is needed: a square of side 2^-600 does not contain its own centre in doubles. C75_slanted_contrast shows that horizontal and vertical edges are needed: with a slanted shared edge, in double arithmetic, both parts or neither part contain a point.",
 "C78": "Double is IEEE binary64 with gradual underflow and overflow to infinity (NaN is not modelled; under the hypotheses none occurs in what is claimed). What `** 0.5` returns is assumed to be within one unit in the last place and infinite for infinity (class SqrtOk, shown satisfiable by sqrtOk_exists). `x ** 2` of a number is modelled as x * x: CPython raises OverflowError where that overflows, which for EPSILON <= 1/2 it does not. Finding: normalized() of a vector of length 2^513 (2.7e154) or more is the null vector, so a line with that direction raises ValueError although the vector is far from null.",
 "C86": "Violated for deep copies of polygons declared convex (C86_violated: they go through all vertices for ever, although is_convex is known to be True) and for flat convex polygons (example). Proved: the linear bound for every object, the logarithmic one for polygons declared convex, regular ones, and undeclared ones once is_convex is known and True and the polygon is not flat; the bounds for the other properties. The `expected' O(n log n) of is_simple is not a statement about all inputs and is not treated.",
 "C87": "Violated: polygons declared convex (Polygon(vs, is_convex=True), hulls) always take n steps (C87_declared), and for every n > 20 there are a strictly convex polygon and an exterior point for which the search takes at least n steps (C87_violated). Proved: 5n + 2 for every object and point, n for up to 20 vertices, 2 ceil(log2 n) for the remaining convex polygons and exterior points off the critical lines.",
 "C88": "Sorting m items is charged m (log2 m + 1) steps, set and dict operations a constant: the running time of CPython's own data structures is trusted. The `expected' O(n log h) is not a statement about all inputs and is not treated.",
 "C89": "Exact arithmetic. Points on a line: C57_line, C57_vertical_violated. Triangles with vertices closer than EPSILON: C50.",
 "C90": "The unchanged code violates the statement as it stands: reversing a list of eight points in general position gives a hull of another region (C90_violated: points are lost, C57). Partial: under the hypothesis that neither hull has lost a point (C57_exact_partial, C57_caps_partial and C57_small say when); C90_small needs none for at most seven points. With three points on a line only the region is the same: C90_collinear_violated. Exact arithmetic; C90_doubles_partial: in double precision on a grid.",
 "C91": "The unchanged code violates the statement as it stands: the highest of eight points is lost, so that the box is too low and the hull of the mirrored points is not the mirrored hull (C91_violated); the hull of the eight vertices of a (correct, convex) hull has six vertices (C91_again_violated). Partial: under the hypothesis that the hulls have lost no point (C57_exact_partial, C57_caps_partial and C57_small say when). Exact arithmetic.",
 "C92": "No law of arithmetic; only that what equals zero exceeds neither EPSILON nor its square and is below EPSILON in magnitude (C92_positive: every positive EPSILON). Int operands too large for a float and the ValueError of math.tan(inf) in Affine.shear are outside the model. C92_needs_tolerance: EPSILON 0 or negative.",
 "C93": "The unchanged code violates the statement as it stands (C93_violated). C93_square_partial: after any history, the last call leaves both consistent if it does not raise, and it raises exactly if the square overflows.",
 "C94": "Double is binary64 without NaN, with infinity as a saturating value; math.sqrt is assumed correctly rounded up to an ulp (SqrtOk). A segment whose vector is shorter than 2^-490 may get the length 0; for those only the bound with EPSILON is proved.",
 "C95": "The unchanged code violates the statement as it stands: a line or ray is transformed through a point and that point plus its unit direction, and from coordinates of 2^56 on the two are the same double, so that every transform raises ValueError (C95_violated, C95_line_violated). Partial: under the hypothesis that the transformed unit direction is longer than EPSILON + 2 g (C95_ray_partial, C95_line_partial, C95_segment_partial); T * segment needs 2 g <= EPSILON besides, because from_points checks the end it was given.",
 "C96": "The unchanged code violates the statement as it stands: polygon.py:241 stores is_convex = True before anything is known, lines 275 and 277 read it again, and 304-316 store lists that 317-320 reverse (C96_race_violated, C96_interrupted_violated, C96_unreversed_violated, C96_permanent_violated). Partial: under the hypothesis that the convexity is known (after one is_convex, C96_after_is_convex_partial) or not needed, every schedule and every interruption is safe (C96_any_order_partial, C96_as_if_in_turn_partial, C96_interrupted_partial). Without any hypothesis: vertices are never changed, bounding_box, tangents of up to 20 vertices, contains_point of triangles and is_convex of convex polygons are right (C96_always), no thread waits (C96_wait_free), and the properties of transforms are safe (C96_transform). C96_alone links the threads to the sequential model.",
 "C97": "The unchanged code violates the statement as it stands: polygon.py:437-439 replaces the vertex before it clears the caches one by one (C97_stale_violated), itransform writes one vertex after the other (C97_twice_violated), line.py:50-51 and 67-68 store direction and normal one after the other (C97_frame_violated). Partial: what an interruption can leave (C97_item, C97_times, C97_sequences, C97_lines) holds without restriction; polygons whose caches are empty stay right at every point (C97_fresh_partial); every interrupted item assignment and setter can be repeated (C97_item_again, C97_setter_again) and every completed assignment repairs the polygon (C97_repair); what a repeated *= gives is C97_times_again_partial.",
 "C98": "The unchanged code violates the statement as it stands (C98_stale_violated, C98_raise_violated, C98_keyerror_violated, C98_lost_violated, C98_array_violated, C98_frame_violated). Proved for all schedules: threads that only assign leave no stale cache (C98_fresh) and only old or new values (C98_values, C98_items), array.extend loses nothing (C98_extend), operations that use the list once are linearizable (C98_arrays, C98_array_ops). Partial: KeyError is possible, on triangles with a cached closure and nowhere else (C98_results_partial); even then, when all have ended, one has succeeded and no stale cache is left (C98_settled, C98_settled_items). With reading threads beside them: vertices have old or new values and the next completed assignment repairs the polygon (C98_repair). C98_alone and C98_shared link the threads to the sequential model.",
 "C99": "C99_values is the full equivalence of the heap model, in which an iterator refers to a list object, with a machine without a heap in which an iterator follows an object until its items are replaced at once. C99_undisturbed, C99_ends, C99_append and C99_len are the statements a user relies on."
}
