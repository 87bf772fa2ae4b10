p("C61","contains_point is constant on regions",
  "contains_point answers the same at any two points joined by a segment that does not touch the boundary; a point strictly on one and the same side of every edge is inside; a point strictly beyond some edge of a convex polygon is outside.",
  "all polygons, all pairs of points", "Topological statement over all polygons and segments.", [f"{G}:Polygon.contains_point", f"{G}:Polygon._pnp_winding_test"])
p("C62","boxes are never inverted",
  "Every BoundingBox returned by the API (constructor, from_points, from_shapes, from_center, inflate, fit, * with a rectilinear transform) has min_point.x <= max_point.x and min_point.y <= max_point.y, also for negative widths and negative inflation.",
  "all chains of box operations", "Induction over arbitrary chains of box operations.", [f"{B}:BoundingBox._init_min_max", f"{B}:BoundingBox.from_center", f"{B}:BoundingBox.inflate", f"{B}:BoundingBox.__mul__"])
p("C63","declared flags are trusted until the polygon changes, and correct ones change nothing",
  "If is_convex and is_simple passed to Polygon(...) are what the polygon would compute, no property answers differently because of them, after any history. Right or wrong, a declared is_convex (and is_simple with it) is answered after any reads and queries, for triangles both are always True; after a vertex assignment or an in-place transform every declaration is forgotten. contains_point of a polygon declared not convex answers by the winding rule whatever is read, and correct declarations do not change contains_point.",
  "all vertex lists, flags and histories", "Ranges over all histories of reads and writes on an object with caches.", [f"{G}:Polygon.__init__", f"{G}:Polygon._clear_cached_properties", f"{G}:Polygon.is_convex", f"{G}:Polygon.is_simple"])
p("C64","the ..._known properties",
  "is_convex_known, is_simple_known and is_centroid_known are False right after a change (except that convexity and simplicity of triangles are known), True after the property was read, stay True under reads and queries, and while True reading the property changes nothing.",
  "all polygons, states and operations", "Ranges over all reachable cache states.", [f"{G}:Polygon.is_convex_known", f"{G}:Polygon.is_simple_known", f"{G}:Polygon.is_centroid_known"])
p("C65","contains_point commutes with invertible transforms",
  "For an invertible transform t and a point p on no edge of the polygon, (polygon * t).contains_point(t * p) equals polygon.contains_point(p); the winding number is unchanged by orientation preserving transforms and negated by orientation reversing ones. For points on the boundary this can fail.",
  "all polygons, invertible transforms and points off the boundary", "Geometric invariance over all polygons and all transforms.", [f"{G}:Polygon.contains_point", f"{G}:Polygon._pnp_winding_test", f"{G}:Polygon.__mul__"])
p("C66","is_convex and is_simple are unchanged by invertible transforms",
  "Transforming a polygon by an invertible transform does not change is_convex (last two vertices distinct), nor is_simple when the polygon is in general position or does not touch itself. For polygons touching themselves is_simple can change.",
  "all polygons and invertible transforms", "Geometric invariance over all polygons and all transforms.", [f"{G}:Polygon.is_convex", f"{G}:Polygon._classify", f"{G}:Polygon.is_simple", f"{G}:Polygon._check_is_simple", f"{G}:Polygon.__mul__"])
p("C67","== polygons are interchangeable",
  "If two polygons are ==, so are their transforms; asked before anything else they contain the same points; and after any histories they have the same bounding_box, and, when their vertices are distinct, the same is_convex, is_simple and centroid (also None or ZeroDivisionError).",
  "all pairs of == polygons, all transforms, points and histories", "Congruence of an equality over all polygons and histories.", [f"{G}:Polygon.__eq__", f"{G}:Polygon.contains_point", f"{G}:Polygon.is_convex", f"{G}:Polygon.is_simple", f"{G}:Polygon.centroid", f"{G}:Polygon.bounding_box"])
p("C68","what is exact in floating point",
  "Also with rounded arithmetic: vector addition commutes, adding null, multiplying by 1 and negating twice change nothing, a - b is null only for equal vectors and is the negative of b - a; dot is symmetric, cross antisymmetric, a.cross(a) and a.dot(a.perpendicular()) are 0, squared lengths are >= 0; the identity transform is neutral, translations and scales apply with a single rounding; lerp hits both ends; almost_equals is symmetric.",
  "all numbers with correctly rounded (or any monotone, sign-symmetric, exact-where-representable) operations", "Ranges over all pairs of floats and all rounding errors.", [f"{V}:Vec2.__add__", f"{V}:Vec2.cross", f"{V}:Vec2.lerp", f"{T}:Affine.__mul__", f"{V}:Vec2.almost_equals"])
p("C69","floating point containment stays inside the bounding box",
  "Whatever the rounding errors, a polygon that was not classified yet never reports a point outside its bounding_box as contained.",
  "all polygons with at least four vertices, all points, all rounding errors", "Ranges over all floats; failures need special magnitudes.", [f"{G}:Polygon.contains_point", f"{G}:Polygon._pnp_winding_test", f"{G}:Polygon.bounding_box"])
p("C70","on a grid floating point answers are the exact ones",
  "If all coordinates are multiples of one power of two 2^e with -537 <= e <= 485, at most 2^25 of them (for hulls and triangles -255 <= e <= 242 and 2^11), is_convex, is_simple, bounding_box, contains_point, tangents_to_point and convex_hull computed with doubles give exactly the answers of exact arithmetic, after any history of such assignments, reads and queries.",
  "all polygons, points and histories on all such grids", "Ranges over all inputs on the grid; needs that no intermediate result is rounded (or that it does not matter).", [f"{G}:Polygon.is_convex", f"{G}:Polygon.is_simple", f"{G}:Polygon.contains_point", f"{G}:Polygon.tangents_to_point", f"{G}:Polygon.convex_hull", f"{G}:Polygon._pnp_triangle_test"])
p("C71","operators between vectors, arrays, sequences, polygons and transforms",
  "For + - * / // and every pair of operands: a supported combination gives the documented class (an array with a sequence the class of the sequence; a transform the class of the other operand, from either side), item by item what the operator gives for single vectors; sequences of different lengths raise ValueError, zero divisors ZeroDivisionError, everything else TypeError. In-place forms change arrays (and, for *= with a transform, sequences and polygons) to the value of the plain form and never change vectors or transforms.",
  "all operators, all operands of all lengths", "Python dispatch chooses between a dozen methods by class and, through unpacking, by length.", [f"{V}:Vec2.__add__", f"{V}:Vec2.__mul__", f"{V}:Vec2.__rtruediv__", f"{V}:Vec2Array.__add__", f"{V}:Vec2Array.__sub__", f"{V}:Vec2Array.__rsub__", f"{V}:Vec2Array.__imul__", f"{V}:Seq2.__imul__", f"{T}:Affine.__mul__", f"{T}:Affine.__rmul__", f"{T}:Affine.__imul__"])
p("C72","sequence objects do not share state",
  "In every program with any number of Seq2, Vec2Array and Polygon objects each object behaves like an independent value: copies, slices, conversions, from_points and operator results keep their items when the original is changed and vice versa, a statement changes at most the object it is applied to, and an object may be its own argument (a[:] = a, a += a, a.extend(a)).",
  "all programs of constructors, copies, slices, item and slice assignments, deletions, append, insert, extend, normalize, clamp, operators and in-place operators", "Aliasing shows only in particular interleavings of operations on several objects.", [f"{V}:Seq2.__init__", f"{V}:Seq2.from_points", f"{V}:Seq2.__copy__", f"{V}:Vec2Array.__getitem__", f"{V}:Vec2Array.__setitem__", f"{V}:Vec2Array.extend", f"{V}:Vec2Array.__iadd__", f"{T}:Affine.itransform"])
p("C73","== and hash between objects of all classes",
  "a == b never raises, is reflexive, symmetric and transitive whatever the classes of a and b, != is its negation, and equal hashable objects have equal hashes, so that vectors, transforms and tuples can be exchanged for one another as dict keys; shapes of different classes are never equal.",
  "all pairs (triples) of vectors, transforms, sequences, polygons, shapes, numbers, nested tuples and lists, and foreign objects", "Ranges over all pairs of classes and all nested values; the answer depends on which class Python asks first.", [f"{V}:Vec2.__eq__", f"{V}:Vec2.__ne__", f"{V}:Vec2.__hash__", f"{V}:Seq2.__eq__", f"{V}:Seq2.__hash__", f"{T}:Affine.__hash__", f"{B}:BoundingBox.__eq__", f"{L}:Line.__eq__", f"{L}:Ray.__eq__", f"{L}:LineSegment.__eq__", f"{G}:Polygon.__eq__"])
p("C74","no internal errors whatever the arithmetic",
  "On any polygon object built through the API, in any state, and with any floats, contains_point and tangents_to_point of a Vec2, bounding_box, is_convex and is_simple raise nothing, centroid raises at most ZeroDivisionError, and Polygon.convex_hull raises at most ValueError (hull of fewer than three vertices) or IndexError (no points): never an IndexError of an internal list, an UnboundLocalError or a TypeError.",
  "all polygon objects, histories and points; all rounding errors, overflows, infinities and NaNs", "An internal list is indexed by a bisection whose invariants depend on rounding; failures need special magnitudes and histories.", [f"{G}:Polygon.contains_point", f"{G}:Polygon._pnp_y_monotone_test", f"{G}:Polygon._split_y_polylines", f"{G}:Polygon.tangents_to_point", f"{G}:Polygon.centroid", f"{G}:Polygon.convex_hull", f"{G}:_ahull_partition_points"])
p("C75","polygons with horizontal and vertical edges are exact in floating point",
  "For a polygon with at least four vertices whose edges are all horizontal or vertical and not shorter than one unit (or of any length when products do not underflow), whatever the magnitudes of the coordinates, is_convex, is_simple, bounding_box and contains_point of any point give in floating point exactly the answers of exact arithmetic, after any history of such reads and queries and after any assignment or in-place transform that leaves such a polygon; so such polygons tile: cut along a horizontal or vertical chord every point of the polygon is in exactly one part.",
  "all floats (of any precision, with or without underflow), all such polygons with any number of vertices, all points and histories", "Ranges over all magnitudes and rounding errors; with slanted edges, or edges so short that products underflow, the same statement is false.", [f"{G}:Polygon.is_convex", f"{G}:Polygon.is_simple", f"{G}:Polygon.contains_point", f"{G}:Polygon._pnp_winding_test", f"{G}:Polygon._pnp_y_monotone_test", f"{G}:Polygon.bounding_box"])
p("C76","bounding box, centroid and tangents move with the polygon",
  "Transforming a polygon, in place or not, transforms what is derived from it: for rectilinear transforms bounding_box of the image is the image of bounding_box, for others it is inside the bounding box of that image; for invertible transforms the centroid (of a polygon in general position or not touching itself) is the image of the centroid, None or ZeroDivisionError exactly when it was before; and tangents_to_point of the image point returns the images of the tangent vertices for positive determinants (any polygon, any point), and for mirroring transforms tangents on the same lines with left and right exchanged.",
  "all polygons, histories of reads and edits, transforms and points", "Equivariance over all transforms and all histories.", [f"{G}:Polygon.bounding_box", f"{G}:Polygon.centroid", f"{G}:Polygon.tangents_to_point", f"{G}:Polygon.__imul__", f"{B}:BoundingBox.__mul__", f"{T}:Affine.__mul__"])
p("C77","away from the edges floating point answers are the exact ones",
  "In double precision, with coordinates of at most 2^510: a polygon with at least four vertices contains a point that is horizontally farther from the edges at its height than M/2^48 (about 4e-15 times the largest coordinate M) exactly when its exact winding number is not zero; if no corner is too flat (cross product above 2^-51 of its terms), is_convex is True exactly for convex polygons, and is_convex, bounding_box, contains_point of such points (and is_simple, when vertices are as clear of the edges they do not end) are those of exact arithmetic after any history of reads and queries at any points, and so are the vertices that tangents_to_point returns for a point that sees every edge and every two vertices under a clear angle: from outside the convex hull they are tangent vertices. A triangle of size S (corners more than 1.5 EPSILON apart) that fills a quarter of its square contains a point within R of its corners and farther than R/2^40 from its edges exactly when the exact winding number is not zero, after any history, edits included.",
  "all doubles up to 2^510, all such polygons with any number of vertices, declared flags, histories and points", "Ranges over all rounding errors; needs an error bound for every orientation test, not a sample of points.", [f"{G}:Polygon.is_convex", f"{G}:Polygon.is_simple", f"{G}:Polygon.contains_point", f"{G}:Polygon._pnp_winding_test", f"{G}:Polygon._pnp_y_monotone_test", f"{G}:Polygon._pnp_triangle_test", f"{G}:Polygon._classify", f"{G}:Polygon.tangents_to_point"])
p("C78","unit vectors, lines, rays and segments in double precision",
  "In double precision, with EPSILON between 2^-500 and 1/2: normalized never raises and gives the unit vector along v up to a relative 2^-50 in each component, or the null vector when v is shorter than EPSILON (up to a relative 2^-50) or so long that its squares overflow (null from 2^513 on, never up to 2^510); assigning direction or normal, and constructing lines, rays and segments, raises ValueError for exactly those vectors and otherwise leaves a direction that is that unit vector and a normal exactly at right angles to it. For coordinates up to M, distance_to of a line, ray or segment is the exact distance up to M/2^46 (M/2^44 for LineSegment.from_points), so point_left, point_right and contains_point, and the decision of from_points to reject a point, are those of exact arithmetic except within that margin of EPSILON. parallel and perpendicular of a line never raise: their directions are exact up to 2^-48 (also relative to the vector the first line was made with), the new line contains the given point exactly, and its distances are exact up to M/2^45. The same holds for the line property of a ray and of a segment (along the x-axis when the length of the segment's vector is computed as zero). A segment's end is anchor + vector, its mid anchor + vector/2 and its length that of the vector, up to M/2^48. The two points of a line are on it up to (M+1)/2^46, and contained in it when EPSILON is above (M+1)/2^43. Assigning vector or end to a segment in any state raises ValueError and changes nothing, or keeps the anchor and gives the vector up to M/2^47, the end up to M/2^46. point_behind, point_ahead, point_left and point_right of rays and segments are those of exact arithmetic except within M/2^46 ((M+1)/2^46 for segments) of EPSILON. from_normal of lines and segments raises ValueError for exactly the normals shorter than EPSILON and otherwise (up to 2^510) makes a line whose normal is the unit vector along the given one, whose distances are exact up to M/2^46, or a segment whose anchor is exact up to M/2^48 and whose length is the rounded difference of the two distances.",
  "all doubles, vectors and points up to the stated magnitude, all lists of points", "Ranges over all rounding errors of a chain of multiplications, sums, a square root and divisions.", [f"{V}:Vec2.normalized", f"{V}:Vec2.length", f"{L}:_LinearGeometry.direction", f"{L}:_LinearGeometry.normal", f"{L}:Line.__init__", f"{L}:Line.distance_to", f"{L}:Line.point_left", f"{L}:Line.point_right", f"{L}:Line.from_points", f"{L}:Ray.distance_to", f"{L}:Ray.from_points", f"{L}:LineSegment.distance_to", f"{L}:LineSegment.contains_point", f"{L}:LineSegment.from_points", f"{L}:Line.parallel", f"{L}:Line.perpendicular", f"{L}:Ray.line", f"{L}:LineSegment.line", f"{L}:LineSegment.end", f"{L}:LineSegment.mid", f"{L}:Line.points", f"{L}:LineSegment.vector", f"{L}:Ray.point_behind", f"{L}:Ray.point_left", f"{L}:Ray.point_right", f"{L}:LineSegment.point_ahead", f"{L}:LineSegment.point_behind", f"{L}:LineSegment.point_left", f"{L}:LineSegment.point_right", f"{L}:Line.from_normal", f"{L}:LineSegment.from_normal"])
p("C79","transforms in double precision",
  "In double precision a transformed point (every vertex of a transformed polygon, in place or not) is the exact image up to 2^-51 of the sum of the absolute values of the terms of each coordinate; the entries of a product of transforms are those of the matrix product with the same relative error, and the determinant likewise. ~T returns or raises TransformNotInvertible, nothing else, and raises exactly for determinants below EPSILON except within that error of EPSILON; what it returns has the entries of the exact inverse matrix up to a relative 2^-50 (2^-49 for the translation) times the amount of cancellation in the determinant. A product of transforms applied to a point, and two transforms applied one after the other, are the exact images up to 2^-48 of the sum of the absolute values of the terms; so they agree up to rounding when they do in exact arithmetic (C14). ~T * (T * p) is p, and polygon *= T; polygon *= ~T brings every vertex back, up to 2^-48 of the sum of the absolute values of all the terms times that amount, for the transforms ~T undoes in exact arithmetic (without translation, or with equal skew entries: C15). ~T * T and T * ~T are the identity up to 2^-48 of the terms of each entry times that amount, for every transform. is_rectilinear is exact; almost_equals, is_conformal, is_orthonormal and is_degenerate are those of exact arithmetic except within a relative error of about 2^-49 of EPSILON.",
  "all doubles up to 2^500 (2^200 for inverses), all transforms, points and polygons with any history", "Ranges over all rounding errors; the error of an inverse depends on the cancellation in the determinant.", [f"{T}:Affine.__mul__", f"{T}:Affine.itransform", f"{T}:Affine.__invert__", f"{T}:Affine.determinant", f"{T}:Affine.is_degenerate", f"{T}:Affine.almost_equals", f"{T}:Affine.is_rectilinear", f"{T}:Affine.is_conformal", f"{T}:Affine.is_orthonormal"])
p("C80","vectors in double precision",
  "In double precision, for coordinates up to 2^500: dot and cross are the exact values up to 2^-51 of the sum of the absolute values of their two terms, length and distance_to up to a relative 2^-51, lerp likewise and exactly the ends for 0 and 1; <, <=, >, >= order vectors by length, and is_null and almost_equals compare with EPSILON, as exact arithmetic does except within a relative 2^-50. scaled_to, project and reflect never raise: for a vector shorter than EPSILON they return the null vector, for a longer one (each within a relative 2^-50) the vector of the asked length along it, the projection on it and the reflection in it, up to 2^-50 (2^-48 for reflect) of the length of the result's source; clamped returns the vector itself when its length is clearly within the bounds, scaled_to the bound that is violated otherwise, and raises ValueError exactly for bounds in the wrong order (a bound of 2^512 or more raises OverflowError).",
  "all doubles up to the stated magnitude, all vectors, lengths, bounds, EPSILON from 2^-500 (2^-200 for project and reflect) to 2^500", "Ranges over all rounding errors and underflows of a chain of products, sums, a square root and quotients.", [f"{V}:Vec2.dot", f"{V}:Vec2.cross", f"{V}:Vec2.length", f"{V}:Vec2.distance_to", f"{V}:Vec2.lerp", f"{V}:Vec2.__lt__", f"{V}:Vec2.__ge__", f"{V}:Vec2.is_null", f"{V}:Vec2.almost_equals", f"{V}:Vec2.scaled_to", f"{V}:Vec2.project", f"{V}:Vec2.reflect", f"{V}:Vec2.clamped"])
p("C81","angles, rotations, regular polygons and stars in double precision",
  "In double precision, if the functions of math are accurate to one unit in the last place: Vec2.polar, rotated and Affine.rotation (with and without a pivot) turn by the given angle up to 2^-47 of the sizes involved, for every finite angle however large, keep lengths up to 2^-46 (2^-45), and are exact, not just close, for all multiples of 90 degrees; angle and angle_to are the exact angles in degrees up to a relative 2^-50 (2^-49) off the negative x-axis; the entries of Affine.shear are the tangents up to 2^-48 for angles up to 60 degrees; Polygon.regular and Polygon.star, with up to 2^40 vertices, put vertex i at the given distance from the centre and at the i-th of equally spaced angles up to (i + 2) / 2^48 of the radius (accumulated rounding of the angle) and 2^-52 of the centre, and its distance from the centre is right up to 2^-46 however large i is.",
  "all finite angles, all vectors, centres and radii up to 2^500, all vertex counts up to 2^40", "Ranges over all rounding errors, including those a loop accumulates, and over all angles.", [f"{V}:Vec2.polar", f"{V}:Vec2.rotated", f"{V}:Vec2.angle", f"{V}:Vec2.angle_to", "planar/util.py:cos_sin_deg", f"{T}:Affine.rotation", f"{T}:Affine.shear", f"{G}:Polygon.regular", f"{G}:Polygon.star"])
p("C82","polygons with rounded vertices contain the right points",
  "In double precision, a polygon with at least four vertices that were rounded or computed with errors (images of polygons under transforms, in particular) contains a point exactly when the exact polygon winds around it, provided that the point is farther from the edges of the exact polygon than the errors of the vertices plus 2^-48 of the coordinates. T * polygon and polygon *= T: 2^-46 of the terms in the images is enough, and the answer is that of the polygon about the point that T moves there. For convex polygons, whatever convexity is declared (also wrongly) and whatever was read before (so whatever is_convex makes of corners that rounding spoilt), three times the errors plus 2^-48 of the coordinates is enough, provided the leftmost and rightmost vertices are not the lowest or highest. Regular polygons with five or more vertices (whose stored radii decide quickly): n 2^-44 of the coordinates is enough, after any reads. Stars: n 2^-43, when their valleys are so deep that no edge comes nearer to the centre than the inner vertices (or the radii have opposite signs, or there are two peaks).",
  "all polygons, all errors of the vertices, all points away from the edges, all histories of reads and declared flags", "Ranges over all rounding errors of all the vertices and of the tests at once.", [f"{G}:Polygon.contains_point", f"{G}:Polygon._pnp_winding_test", f"{G}:Polygon._pnp_y_monotone_test", f"{G}:Polygon._split_y_polylines", f"{G}:Polygon.regular", f"{G}:Polygon.star", f"{T}:Affine.__mul__"])
p("C83","bounding boxes in double precision",
  "Whatever the rounding, a box inflated by amounts that are not negative encloses the box, from_center encloses the centre (also for negative sizes), the computed image of every point of a box is in the computed image of the box under a transform that keeps or exchanges the axes, and fit of a box raises ZeroDivisionError exactly for boxes without width or height and nothing else. In double precision center is in the box and is its middle up to a relative 2^-52 of the sums; from_center and inflate put the sides where exact arithmetic does up to 2^-51 (2^-52) of the sizes; and fit of a box puts every side where exact arithmetic does up to 2^-49 of the coordinates of the frame, however different the sizes of the two boxes are, so the result is in the frame up to that.",
  "all boxes, points, amounts, sizes and axis-keeping transforms; any rounding for the first part, doubles up to 2^1000 (2^500 for fit) for the second", "Ranges over all rounding errors; the ratio of the two sizes can be anywhere between 2^-1000 and 2^1000.", [f"{B}:BoundingBox.inflate", f"{B}:BoundingBox.from_center", f"{B}:BoundingBox.center", f"{B}:BoundingBox.fit", f"{B}:BoundingBox.__mul__"])
p("C84","the centroid in double precision",
  "In double precision, after any history of reads and edits, the centroid of a polygon that is found simple is the exact centroid of the region enclosed by its stored vertices, up to n (D^2 + T)/A (T/A) M / 2^48 in each coordinate, where D is its larger extent, M bounds its coordinates, A is twice its area and T is twice the sum of the areas of the triangles from the first vertex; for convex polygons up to n (D^2/A + 1) M / 2^48. It is so for every polygon that is not too thin (n (D^2 + T) at most 2^43 A) or tiny; for thin or tiny triangles of positive area ZeroDivisionError can be raised.",
  "all polygons with coordinates up to 2^300 and extent at least 2^-300, all histories", "Ranges over all rounding errors of a loop that adds products of differences, with cancellation.", [f"{G}:Polygon.centroid"])
p("C85","what set_epsilon changes in objects made before it",
  "Whatever the rounding: raising EPSILON never makes vectors, sequences, boxes, transforms, lines, rays or segments that were almost equal cease to be so, nor a null vector, nor a rectilinear, conformal, orthonormal, degenerate or identity transform; lines, rays and segments contain no fewer points and have no more of them left, right, behind or ahead. Lines, rays and segments keep nothing of the EPSILON they were made with: a constructor or assignment that accepts its arguments under one EPSILON accepts them under every smaller one with the same result, and from_points gives the same object under any two values that accept the points. Polygons with four or more vertices do not depend on EPSILON at all, in any state and whenever it is changed. Triangles contain what fresh ones contain under the current EPSILON, except that one asked before EPSILON was raised above the distance of two of its vertices goes on answering as it did, where a fresh one contains nothing; every other property is that of a fresh polygon.",
  "all values of EPSILON with positive square (any rounding of numbers), all objects, all histories of reads, edits and set_epsilon calls", "A property of all interleavings of set_epsilon with reads and edits, and of all pairs of values.", ["planar/__init__.py:set_epsilon", f"{V}:Vec2.almost_equals", f"{V}:Vec2.is_null", f"{V}:Seq2.almost_equals", f"{B}:BoundingBox.almost_equals", f"{T}:Affine.almost_equals", f"{L}:_LinearGeometry.direction", f"{L}:Line.__init__", f"{L}:Line.from_points", f"{L}:Ray.from_points", f"{L}:LineSegment.from_points", f"{G}:Polygon._pnp_triangle_test", f"{G}:Polygon.contains_point"])
p("C86","documented running times of contains_point, is_convex, is_simple, centroid and bounding_box",
  "Counting passages of loops, comparisons of bisect and m (log2 m + 1) for sorting m items: contains_point takes a constant number of steps for triangles and when the radii of a regular polygon or star decide, at most 3 + 2 log2(n + 1) steps for convex polygons, and never more than 2n + 1; is_convex and bounding_box take O(n) steps the first time and none after that, is_simple O(n) for convex polygons and O(n^2) in the worst case, centroid O(n) when the polygon is known to be simple. (The logarithmic bound fails for deep copies and for flat polygons.)",
  "all polygon objects a program can hold, with any number of vertices and any history of operations, all points; no law of arithmetic is used", "An asymptotic bound over all sizes, states and inputs; a benchmark only samples it.", [f"{G}:Polygon.contains_point", f"{G}:Polygon._pnp_y_monotone_test", f"{G}:Polygon._pnp_winding_test", f"{G}:Polygon._pnp_triangle_test", f"{G}:Polygon.is_convex", f"{G}:Polygon._classify", f"{G}:Polygon.is_simple", f"{G}:Polygon._check_is_simple", f"{G}:Polygon.centroid", f"{G}:Polygon.bounding_box", f"{G}:Polygon.__deepcopy__"])
p("C87","documented running time of tangents_to_point",
  "tangents_to_point takes O(n) steps for every polygon, O(log n) for convex ones: at most 2 log2 n (rounded up) for a polygon with more than 20 vertices that is known to be convex and a point outside it. (Violated by polygons declared convex, and by points on the line through the last and the first vertex.)",
  "all polygons with any number of vertices and any history of operations, all points", "An asymptotic bound over all sizes, states and inputs; the slow points are on finitely many lines and a test has no reason to try them.", [f"{G}:Polygon.tangents_to_point", f"{G}:Polygon._pt_tangents", f"{G}:Polygon._left_tan_i_convex", f"{G}:Polygon._right_tan_i_convex"])
p("C88","documented worst case of convex_hull",
  "convex_hull of n points takes at most n (13 log2 n + 29) steps (charging m (log2 m + 1) for sorting m items and a constant for looking up a point in a set), for every list of points, in any order, with any repetitions and any kind of numbers (rounding, infinities and NaN included), whatever the order in which sets are iterated over.",
  "all lists of points, all orders of iteration; no law of arithmetic is used", "The worst case over all inputs of an adaptive divide and conquer algorithm (quickhull's is quadratic).", [f"{G}:Polygon.convex_hull", f"{G}:_adaptive_quick_hull", f"{G}:_ahull_partition_points", f"{G}:_ahull_sort_points"])
p("C89","a convex hull is what its flags say and answers contains_point correctly",
  "The polygon that convex_hull returns for points that are not on a line says is_convex and is_simple, at once and after any reads, and it is a convex polygon without repeated vertices whose edges meet only in common end points, with its vertices in clockwise order, also when the hull has lost points (C57). contains_point answers by the winding rule on its vertices whatever was read before (with three vertices, if they are at least EPSILON apart): points strictly on the inner side of all edges are contained, points strictly on the outer side of some edge are not.",
  "all lists of points not on a line, all orders of set iteration, all histories of reads, all query points; exact arithmetic", "Polygons declared convex skip the check of the declaration, and their contains_point can be wrong for some vertex orders; that hulls never have such an order must hold for every input.", [f"{G}:Polygon.convex_hull", f"{G}:_adaptive_quick_hull", f"{G}:_ahull_partition_points", f"{G}:_ahull_sort_points", f"{G}:Polygon.contains_point", f"{G}:Polygon.is_convex", f"{G}:Polygon.is_simple"])
p("C90","convex_hull depends only on the set of points",
  "convex_hull returns the same region for every list of the same points: the order of the list, repetitions and the order in which Python iterates over sets make no difference, and every point that is not in the hull of the others is a vertex. If no three different points are on a line the returned polygons are == (the same vertices in the same cyclic order).",
  "all pairs of lists with the same members, all pairs of iteration orders; exact arithmetic", "Quantifies over all permutations of the input and over hash-dependent iteration orders that a test run cannot choose.", [f"{G}:Polygon.convex_hull", f"{G}:_adaptive_quick_hull", f"{G}:_ahull_partition_points", f"{G}:_ahull_sort_points", f"{G}:Polygon.__eq__"])
p("C91","convex hulls with transforms, bounding boxes and hulls of hulls",
  "The bounding box of a convex hull is the bounding box of the points; a leftmost and a rightmost point are always among its vertices. If no three different points are on a line, the hull of the points transformed by a transform that is not degenerate is == to the transformed hull, also when the transform mirrors, and the hull of the vertices of a hull is == to it.",
  "all lists of points, all orders of set iteration, all transforms; exact arithmetic", "Metamorphic relations between two runs of the algorithm, which takes different branches in each of them; they must hold for every input.", [f"{G}:Polygon.convex_hull", f"{G}:_adaptive_quick_hull", f"{G}:Polygon.bounding_box", f"{T}:Affine.__mul__", f"{G}:Polygon.__eq__"])
p("C92","exceptions of vectors, transforms, boxes, lines, rays and segments",
  "Whatever the numbers (rounding, infinities and NaN included), as long as EPSILON is positive: normalized, scaled_to, project and reflect of vectors never raise; clamped raises ValueError exactly when both bounds are given and min > max, otherwise OverflowError exactly when the square of a bound it compares with is too large for a float, and nothing else; ~T raises TransformNotInvertibleError exactly when T.is_degenerate and nothing else; a box of points or shapes raises ValueError exactly when there are none, from_center, inflate, to_polygon and T*box never raise, fit raises ZeroDivisionError exactly when what is fitted has zero width or height; every constructor, transform and derived line of Line, Ray and LineSegment raises only ValueError, project and repr never; a failed assignment to direction, normal, vector or end and a failed *= raise ValueError and leave the object as it was.",
  "all arguments, any arithmetic in which nothing equal to zero is above EPSILON (all positive EPSILON in exact arithmetic, in double precision and with NaN), all states of objects", "No exception other than the documented ones for any of the infinitely many arguments, NaN and overflow included.", [f"{V}:Vec2.normalized", f"{V}:Vec2.scaled_to", f"{V}:Vec2.project", f"{V}:Vec2.reflect", f"{V}:Vec2.clamped", f"{T}:Affine.__invert__", f"{B}:BoundingBox.from_points", f"{B}:BoundingBox.from_shapes", f"{B}:BoundingBox.fit", f"{B}:BoundingBox.inflate", f"{L}:_LinearGeometry.direction", f"{L}:_LinearGeometry.normal", f"{L}:Line.from_points", f"{L}:Ray.from_points", f"{L}:LineSegment.from_points", f"{L}:LineSegment.vector", f"{L}:Line.__imul__"])
p("C93","EPSILON2 is the square of EPSILON",
  "After every call of set_epsilon(e), whatever was called before, planar.EPSILON is e and planar.EPSILON2 its square; set_epsilon raises nothing. (Violated: for e of 2^512 (1.3e154) and more it raises OverflowError after having changed EPSILON, and EPSILON2 keeps the old value.)",
  "all histories of set_epsilon calls, also with exceptions that the caller caught, all numbers", "An invariant over all histories; the failing values are far from any that a test tries.", ["planar/__init__.py:set_epsilon", "planar/__init__.py:EPSILON", "planar/__init__.py:EPSILON2"])
p("C94","project and reflect of lines, rays and segments in double precision",
  "In double precision project never raises. For a line through a and a point p it is the point of the line nearest to p, and reflect is the mirror image of p, up to M / 2^44 in each coordinate, where M bounds the coordinates of a and p. For rays and segments it is at most EPSILON (and that error) from the nearest point; up to the error alone it is the nearest point if p is not beyond an end, and it is the start or the end itself if p is beyond it by more than EPSILON (and the error).",
  "all EPSILON from 2^-500 to 1/2, all objects the constructors return, all points with coordinates up to 2^500", "Ranges over all rounding errors of normalization, dot products and additions, with cancellation.", [f"{L}:Line.project", f"{L}:Line.reflect", f"{L}:Ray.project", f"{L}:LineSegment.project", f"{V}:Vec2.project"])
p("C95","transforming lines, rays and segments in double precision",
  "In double precision T * line, T * ray and T * segment are the line, ray or segment through the images of its points, and *= gives the same object, up to g = B (M + 1) / 2^44, where B bounds the entries of T and M the coordinates of the object: anchors and ends are images up to g, the direction is that of the transformed unit direction W up to 3 g / |W|. If W (for segments: the image of the vector) is longer than EPSILON nothing is raised; if it is shorter, ValueError is raised and *= leaves the object as it was. (Violated: no ray that starts at a point with both coordinates 2^56 (7.2e16) or more can be transformed, not even by the identity.)",
  "all EPSILON from 2^-500 to 1/2, all objects the constructors return, all transforms, coordinates and entries up to 2^240", "Ranges over all rounding errors of the points, of the transform and of the new direction; the failing coordinates are far from any that a test tries.", [f"{L}:Line.__imul__", f"{L}:Ray.__imul__", f"{L}:LineSegment.__imul__", f"{T}:Affine.__mul__", f"{L}:Line.from_points", f"{L}:Ray.from_points", f"{L}:LineSegment.from_points", f"{L}:Line.points", f"{L}:Ray.points", f"{L}:LineSegment.points"])
p("C96","reads by several threads, and interrupted reads",
  "Reading is safe: when several threads read is_convex, is_simple, centroid, bounding_box, contains_point or tangents_to_point of one polygon, or the properties of one transform, in any interleaving, each gets an answer it would get if the reads ran one after another; no thread waits for another (each read takes at most 24 accesses); and after reads have been interrupted at any point (KeyboardInterrupt), later reads answer as if the interrupted ones had not happened or had been completed. (Violated for polygons whose convexity is not yet known: is_convex stores True before it has looked at the vertices, and the polylines of contains_point before they are reversed. A second thread is told that a dart is convex; an interruption makes that permanent; a rhombus no longer contains its centre; and two threads that both get the right answer leave a dart that no longer contains a point inside it.)",
  "all polygons and transforms, all numbers of threads, all reads, all schedules and all points of interruption", "Schedules and interruption points cannot be enumerated, and a test run meets the few that the interpreter happens to choose.", [f"{G}:Polygon._classify", f"{G}:Polygon._split_y_polylines", f"{G}:Polygon.is_convex", f"{G}:Polygon.is_simple", f"{G}:Polygon.centroid", f"{G}:Polygon.bounding_box", f"{G}:Polygon.contains_point", f"{G}:Polygon.tangents_to_point", f"{G}:Polygon._pnp_y_monotone_test", "planar/util.py:cached_property"])
p("C97","assignments that are interrupted",
  "When poly[i] = v, poly *= T, seq *= T, an in-place operator or method of an array, extend, or a setter or *= of a line, ray or segment is interrupted at any point (KeyboardInterrupt), every attribute is as before or as after the operation; of the points the first ones, up to some index, have been transformed; arrays have all old or all new vectors. The polygon then answers about the vertices it has; and the operation can be done again with the outcome of one that was not interrupted. After any number of interruptions the next assignment to a polygon that is completed leaves a polygon the same as a new one with its vertices. (Violated: cached values of the old vertices survive an interruption just after the vertex has been replaced; *= done again transforms some vertices twice; a line is left with a normal that is not perpendicular to its direction.)",
  "all polygons, sequences, lines, rays and segments, all operations, all points of interruption, any number of them", "Interruption points cannot be enumerated by tests, and a signal arrives at a point the test does not control.", [f"{G}:Polygon.__setitem__", f"{G}:Polygon.__imul__", f"{G}:Polygon._clear_cached_properties", f"{T}:Affine.itransform", f"{V}:Vec2Array.extend", f"{V}:Vec2Array.__iadd__", f"{V}:Vec2Array.normalize", f"{L}:_LinearGeometry.direction", f"{L}:_LinearGeometry.normal", f"{L}:LineSegment.vector", f"{L}:LineSegment.end", f"{L}:Line.__imul__", f"{L}:Ray.__imul__", f"{L}:LineSegment.__imul__"])
p("C98","assignments by several threads",
  "When several threads assign to items of one polygon or multiply it in place, in any interleaving, each assignment with a valid index succeeds and one with an invalid index raises IndexError; each vertex always has its old value, an assigned value or the image of one under the transforms, and no longer the old one when an assignment to it has succeeded; threads that assign items leave each vertex with one of the values assigned to it; once one assignment has succeeded, and when all have ended, even with exceptions, the polygon is the same as a new one with its vertices. Threads that extend one array lose no vector and keep the order of each thread; operations of an array on items and slices, append, insert and del act as if one after another. No update is lost, and reads by other threads meanwhile are right. (Violated: bounding_box read during an assignment is stored for good with the old vertices; contains_point raises TypeError; two assignments to a triangle that has answered contains_point can raise KeyError; two poly *= T or array += v lose one of the two; two line.direction = v leave a normal that is not perpendicular.)",
  "all polygons, arrays and lines, all numbers of threads, all assignments, all schedules", "Schedules cannot be enumerated, and a test run meets the few that the interpreter happens to choose.", [f"{G}:Polygon.__setitem__", f"{G}:Polygon.__imul__", f"{G}:Polygon._clear_cached_properties", f"{G}:Polygon.bounding_box", f"{G}:Polygon.contains_point", f"{T}:Affine.itransform", f"{V}:Vec2Array.extend", f"{V}:Vec2Array.__iadd__", f"{V}:Vec2Array.__setitem__", f"{V}:Vec2Array.insert", f"{L}:_LinearGeometry.direction"])
p("C99","iteration over sequences that change",
  "Iterating over a vector sequence, array or polygon (for loops, list(), unpacking, explicit iterators) shows its items in order and then ends, and an iterator that has ended stays ended, whatever other statements run in between and however many iterators there are, as long as no item of the object is assigned, added or removed. Items assigned or transformed in place (obj[k] = v, array *= T) before the iterator reaches them are shown with their new value, and the loop still runs len(obj) times; appended items are shown as well, so for v in array: array.append(w) never ends. Operations that replace all items (normalize, clamp, array += v, array *= 2) do not reach a loop under way: it goes on with the old items. len(obj) is the number of items and bool(obj) tells whether there are any, in every state.",
  "all programs of sequence statements, iter, next, len and bool, with any number of objects and iterators, and all interleavings of them", "Quantifies over all programs between two calls of next; which operations assign to the list and which replace it cannot be seen from results alone.", [f"{V}:Seq2.__iter__", f"{V}:Seq2.__len__", f"{V}:Seq2.__bool__", f"{V}:Vec2Array.append", f"{V}:Vec2Array.__iadd__", f"{V}:Vec2Array.normalize", f"{V}:Vec2Array.clamp", f"{T}:Affine.itransform"])
