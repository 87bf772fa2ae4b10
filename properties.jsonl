{"id": "C01", "title": "Vec2 arithmetic is a vector space", "statement": "Addition, subtraction, negation and scalar multiplication of Vec2 obey the vector-space laws: a+b==b+a, (a+b)+c==a+(b+c), (a-b)+b==a, a+(-a)==Vec2(0,0), k*(a+b)==k*a+k*b, (k*m)*a==k*(m*a), v/k==v*(1/k) for k!=0; dividing by a zero scalar or by a vector with a zero component raises ZeroDivisionError instead of returning a vector.", "quantifier": "all vectors and scalars", "why_tests_cant": "A law over three arbitrary vectors and scalars; tests sample a handful of literals.", "anchors": ["planar/vector.py:Vec2.__add__", "planar/vector.py:Vec2.__sub__", "planar/vector.py:Vec2.__mul__", "planar/vector.py:Vec2.__truediv__", "planar/vector.py:Vec2.__neg__"]}
{"id": "C02", "title": "dot, cross and perpendicular", "statement": "v.perpendicular() has the same length as v, is at right angles to it (dot 0) and lies counter-clockwise (v.cross(v.perpendicular())==v.length2>=0); cross is antisymmetric and bilinear, a.cross(b)==a.perpendicular().dot(b); a.dot(b)**2 + a.cross(b)**2 == a.length2*b.length2; four applications of perpendicular give v back.", "quantifier": "all vectors", "why_tests_cant": "Polynomial identities over unbounded inputs.", "anchors": ["planar/vector.py:Vec2.dot", "planar/vector.py:Vec2.cross", "planar/vector.py:Vec2.perpendicular"]}
{"id": "C03", "title": "normalized gives a unit vector or null", "statement": "For EPSILON>=0, v.normalized() never raises; it returns a vector of length exactly 1 pointing the same way as v when v.length > EPSILON, and the null vector otherwise.", "quantifier": "all vectors and all non-negative EPSILON", "why_tests_cant": "Ranges over all reals and over the global EPSILON.", "anchors": ["planar/vector.py:Vec2.normalized", "planar/vector.py:Vec2.length"]}
{"id": "C04", "title": "scaled_to and clamped bound the length", "statement": "For a vector longer than EPSILON, v.scaled_to(L) has length |L| and is parallel to v. v.clamped(lo,hi) raises ValueError exactly when both bounds are given and lo>hi; otherwise, for 0<=lo<=hi, its length is in [lo,hi] unless v is null within EPSILON (then it is v itself or the null vector), it is v itself whenever lo<=v.length<=hi, and it points the way v does.", "quantifier": "all vectors, all bounds (given or omitted), all EPSILON>=0", "why_tests_cant": "Case analysis over the relative order of four arbitrary reals.", "anchors": ["planar/vector.py:Vec2.scaled_to", "planar/vector.py:Vec2.clamped"]}
{"id": "C05", "title": "project is the orthogonal projection", "statement": "For v longer than EPSILON, v.project(w) is a multiple of v, w - v.project(w) is perpendicular to v, no multiple of v is closer to w, and projecting twice changes nothing; for shorter v the result is the null vector.", "quantifier": "all pairs of vectors", "why_tests_cant": "Minimality over all multiples of v.", "anchors": ["planar/vector.py:Vec2.project"]}
{"id": "C06", "title": "reflect is a length-preserving involution", "statement": "For m longer than EPSILON, v.reflect(m).reflect(m)==v, v.reflect(m).length==v.length, vectors along m are fixed and vectors perpendicular to m are negated.", "quantifier": "all pairs of vectors", "why_tests_cant": "Universal algebraic law with a division.", "anchors": ["planar/vector.py:Vec2.reflect"]}
{"id": "C07", "title": "Comparison operators are consistent", "statement": "Among Vec2 <,<=,>,>= are the total preorder by length (a<=b or b<=a; transitive; a<b iff not a>=b; a>b iff b<a). == compares coordinates exactly, and != is its exact negation against any sequence of any length.", "quantifier": "all vectors, and all sequences compared against", "why_tests_cant": "Totality/transitivity/negation quantify over all pairs, triples and sequence lengths.", "anchors": ["planar/vector.py:Vec2.__eq__", "planar/vector.py:Vec2.__ne__", "planar/vector.py:Vec2.__lt__", "planar/vector.py:Vec2.__le__", "planar/vector.py:Vec2.__gt__", "planar/vector.py:Vec2.__ge__"]}
{"id": "C08", "title": "Rotation and polar construction", "statement": "v.rotated(a) has the same length as v; rotating by a then b equals rotating by a+b; Vec2.polar(a,L) has length |L|; rotation by 90, 180, 270 (plus any multiple of 360) is exact, so v.rotated(90)==v.perpendicular().", "quantifier": "all vectors, lengths and angles in degrees", "why_tests_cant": "Trigonometric laws over all real angles; includes the special-case table.", "anchors": ["planar/vector.py:Vec2.rotated", "planar/vector.py:Vec2.polar", "planar/util.py:cos_sin_deg"]}
{"id": "C09", "title": "angle and angle_to", "statement": "v.angle is in (-180,180] and Vec2.polar(v.angle, v.length)==v. a.angle_to(b) is documented to be in (-180,180] and the smallest angle from a to b; rotating a by a.angle_to(b) gives the direction of b.", "quantifier": "all non-null vectors", "why_tests_cant": "Range claim over all pairs of directions; the branch cut of atan2 is what matters.", "anchors": ["planar/vector.py:Vec2.angle", "planar/vector.py:Vec2.angle_to"]}
{"id": "C10", "title": "lerp interpolates", "statement": "a.lerp(b,0)==a, a.lerp(b,1)==b, a.lerp(b,t)==b.lerp(a,1-t), a.lerp(b,t)-a == (b-a)*t, and for t in [0,1] the result lies on the segment: its distances to a and b add up to the distance from a to b.", "quantifier": "all vectors and biases", "why_tests_cant": "Universal identity.", "anchors": ["planar/vector.py:Vec2.lerp"]}
{"id": "C11", "title": "almost_equals is a tolerance relation", "statement": "For Vec2, Affine, BoundingBox, Line, Ray and LineSegment: almost_equals is reflexive whenever EPSILON>0 (and never true when EPSILON==0), symmetric, and implied by == when EPSILON>0; for Vec2 it holds iff the distance is < EPSILON.", "quantifier": "all pairs of objects and every EPSILON>=0", "why_tests_cant": "Ranges over EPSILON and all pairs.", "anchors": ["planar/vector.py:Vec2.almost_equals", "planar/transform.py:Affine.almost_equals", "planar/box.py:BoundingBox.almost_equals", "planar/line.py:Line.almost_equals"]}
{"id": "C12", "title": "Affine multiplication is a monoid", "statement": "Affine.identity() is a two-sided unit for *, * is associative, and (A*B).determinant == A.determinant*B.determinant.", "quantifier": "all triples of transforms", "why_tests_cant": "Polynomial identities in 18 unknowns.", "anchors": ["planar/transform.py:Affine.__mul__", "planar/transform.py:Affine.determinant", "planar/transform.py:identity"]}
{"id": "C13", "title": "~T inverts a transform", "statement": "~T raises TransformNotInvertibleError exactly when |determinant| < EPSILON (EPSILON>0); otherwise T*~T == ~T*T == identity and ~~T == T when that is invertible too.", "quantifier": "all transforms, all EPSILON>0", "why_tests_cant": "Universal over 6 coefficients and EPSILON.", "anchors": ["planar/transform.py:Affine.__invert__", "planar/transform.py:Affine.is_degenerate"]}
{"id": "C14", "title": "Composed transforms apply in sequence", "statement": "Multiplying transforms combines their effects: (A*B)*p == A*(B*p) for every point p.", "quantifier": "all pairs of transforms, all points", "why_tests_cant": "Only a few pairs of commuting/symmetric transforms are tested, for which it happens to hold.", "anchors": ["planar/transform.py:Affine.__mul__"]}
{"id": "C15", "title": "Inverse transform undoes the transform on points", "statement": "For non-degenerate T, (~T)*(T*p) == p for every point.", "quantifier": "all non-degenerate transforms, all points", "why_tests_cant": "Needs a transform mixing rotation/shear with translation; tests compare matrices only.", "anchors": ["planar/transform.py:Affine.__invert__", "planar/transform.py:Affine.__mul__"]}
{"id": "C16", "title": "Affine application preserves affine structure and scales area by the determinant", "statement": "T*p is an affine map: it preserves lerp of points (hence midpoints, collinearity and parallelism), and the signed area of every polygon is multiplied by T.determinant; the identity leaves everything unchanged.", "quantifier": "all transforms, all points, all polygons of any number of vertices", "why_tests_cant": "Induction over the number of vertices.", "anchors": ["planar/transform.py:Affine.__mul__", "planar/transform.py:Affine.determinant", "planar/polygon.py:Polygon"]}
{"id": "C17", "title": "Elementary transforms", "statement": "translation(o)*p==p+o; scale(s)*p multiplies componentwise; rotation(a)*p == p.rotated(a) and has determinant 1; rotation(a,pivot)*p == (p-pivot).rotated(a)+pivot, so it fixes the pivot and preserves distances; rotation(a)*rotation(b)==rotation(a+b); scale and translation compose additively/multiplicatively.", "quantifier": "all offsets, scalings, angles, pivots, points", "why_tests_cant": "Trigonometric identity over all reals.", "anchors": ["planar/transform.py:Affine.translation", "planar/transform.py:Affine.scale", "planar/transform.py:Affine.rotation", "planar/transform.py:Affine.shear"]}
{"id": "C18", "title": "Transform classification flags", "statement": "is_orthonormal implies the transform preserves all distances (rigid motion) in the limit EPSILON->0, and implies |determinant| is 1; is_conformal implies angles are preserved; is_rectilinear implies axis-parallel segments stay axis-parallel; is_degenerate iff ~T raises.", "quantifier": "all transforms", "why_tests_cant": "Claim about the image of every pair of points.", "anchors": ["planar/transform.py:Affine.is_orthonormal", "planar/transform.py:Affine.is_conformal", "planar/transform.py:Affine.is_rectilinear", "planar/transform.py:Affine.is_degenerate"]}
{"id": "C19", "title": "In-place transform equals out-of-place transform", "statement": "For a Seq2/Vec2Array/Polygon s, s*=T (T.itransform(s)) leaves s holding, at each index, exactly T*(old s[i]), with the length unchanged, including the shortcut for the identity; for Line, Ray and LineSegment, s*=T yields the object that T*s builds, or both raise ValueError.", "quantifier": "all transforms, all sequences of any length, all linear shapes", "why_tests_cant": "Induction over sequence length and over the mutation loop.", "anchors": ["planar/transform.py:Affine.itransform", "planar/transform.py:Affine.__mul__", "planar/vector.py:Seq2.__imul__", "planar/polygon.py:Polygon.__imul__", "planar/line.py:Line.__imul__"]}
{"id": "C20", "title": "Cached transform properties are stable", "statement": "A property of an immutable object read twice gives the same answer, whatever other reads happen between: determinant, is_rectilinear, ... are computed at most once per object. With EPSILON unchanged the value is that of a fresh computation; after set_epsilon the old answer is still returned for an object already asked. Inverting uses the kept is_degenerate and determinant: with EPSILON unchanged ~T after any history is what a new equal transform gives, and after set_epsilon the kept is_degenerate decides whether it raises.", "quantifier": "every history of property reads and set_epsilon calls", "why_tests_cant": "A property of all interleavings of reads and set_epsilon.", "anchors": ["planar/util.py:cached_property", "planar/__init__.py:set_epsilon", "planar/transform.py:Affine.is_identity"]}
{"id": "C21", "title": "BoundingBox is the smallest box enclosing its points", "statement": "BoundingBox(points) raises ValueError exactly for no points; otherwise every point lies between min_point and max_point, each side of the box touches a point, any box enclosing all the points encloses this one, and the result does not depend on the order or multiplicity of points. width, height >= 0.", "quantifier": "all non-empty finite sequences of points", "why_tests_cant": "Induction over sequence length and all permutations.", "anchors": ["planar/box.py:BoundingBox._init_min_max", "planar/box.py:BoundingBox.from_points"]}
{"id": "C22", "title": "from_shapes encloses every shape", "statement": "BoundingBox.from_shapes(shapes) is the smallest box enclosing the bounding boxes of all the shapes; ValueError exactly for no shapes; equals BoundingBox of all the shapes' points together.", "quantifier": "all non-empty sequences of shapes", "why_tests_cant": "Induction over the number of shapes.", "anchors": ["planar/box.py:BoundingBox.from_shapes"]}
{"id": "C23", "title": "Box containment never double counts and leaves no gaps", "statement": "If two boxes both contain the same point then their interiors overlap; splitting a box at any x or y gives two boxes exactly one of which contains each point of the original and none elsewhere. An empty box contains nothing.", "quantifier": "all boxes, all cut positions, all points", "why_tests_cant": "Universal over boundary-coincident positions that random tests never hit.", "anchors": ["planar/box.py:BoundingBox.contains_point"]}
{"id": "C24", "title": "from_center and inflate keep the centre", "statement": "from_center(c,w,h) has centre c, width |w| and height |h|; box.inflate(d) has the same centre and width |width+dx|, height |height+dy|.", "quantifier": "all centres, sizes and amounts, including negative", "why_tests_cant": "Sign cases over arbitrary reals.", "anchors": ["planar/box.py:BoundingBox.from_center", "planar/box.py:BoundingBox.inflate", "planar/box.py:BoundingBox.center"]}
{"id": "C25", "title": "fit of a box", "statement": "frame.fit(box), for a box of non-zero width and height, lies inside frame, has frame's centre, the box's aspect ratio, and matches the frame's width or height; with a zero width or height it raises ZeroDivisionError.", "quantifier": "all frames and boxes", "why_tests_cant": "Order of two ratios over arbitrary reals.", "anchors": ["planar/box.py:BoundingBox.fit"]}
{"id": "C26", "title": "fit of any other shape", "statement": "frame.fit(shape) for a polygon returns a shape that lies inside the frame.", "quantifier": "all frames and polygons", "why_tests_cant": "Only checked in tests through the resulting matrix, not through the fitted shape.", "anchors": ["planar/box.py:BoundingBox.fit"]}
{"id": "C27", "title": "Transforming a box", "statement": "For an exactly rectilinear transform T, box*T is the bounding box of the transformed corners and a point is in the closed image box iff it is the image of a point of the closed box (T invertible); for a transform that is not rectilinear box*T is the polygon of the four transformed corners in order. In both cases, for an invertible T, the image contains the images of the points inside the box and no image of a point outside it; for a transform that is rectilinear only within EPSILON the image box misses the image of a point of the box by at most EPSILON times the larger side.", "quantifier": "all boxes and transforms", "why_tests_cant": "Set equality over all points.", "anchors": ["planar/box.py:BoundingBox.__mul__", "planar/box.py:BoundingBox.to_polygon"]}
{"id": "C28", "title": "to_polygon has the containment of the box", "statement": "box.to_polygon().contains_point(p) == box.contains_point(p) for every point, also for empty boxes.", "quantifier": "all boxes and points", "why_tests_cant": "Edge and corner cases for all positions.", "anchors": ["planar/box.py:BoundingBox.to_polygon", "planar/polygon.py:Polygon.contains_point"]}
{"id": "C29", "title": "Vec2Array behaves as a list of Vec2", "statement": "Under any sequence of append, extend, insert, del, item and slice reads and writes, a Vec2Array holds what a Python list of the corresponding Vec2 would; failing operations (bad index) raise IndexError and leave the array unchanged; a Seq2 never changes length.", "quantifier": "every finite history of operations, every index including negative", "why_tests_cant": "Quantifies over operation histories.", "anchors": ["planar/vector.py:Vec2Array", "planar/vector.py:Seq2"]}
{"id": "C30", "title": "Array arithmetic is element-wise", "statement": "arr op other for +,-,*,/ between arrays of equal length acts element by element and keeps the length; with different lengths it raises ValueError and (for in-place forms) leaves the array unchanged; with a single vector or scalar it applies to each element; in-place and out-of-place forms agree.", "quantifier": "all arrays of all lengths", "why_tests_cant": "Induction on length.", "anchors": ["planar/vector.py:Vec2Array.__add__", "planar/vector.py:Vec2Array.__iadd__", "planar/vector.py:Vec2Array.__sub__", "planar/vector.py:Vec2Array.__mul__", "planar/vector.py:Vec2Array.__truediv__"]}
{"id": "C31", "title": "longest and shortest", "statement": "For a non-empty array, arr.longest() and arr.shortest() are members of the array with maximum, respectively minimum, length (the first such); on an empty array both are None.", "quantifier": "all arrays of all lengths", "why_tests_cant": "Induction on length; the all-null array is the corner.", "anchors": ["planar/vector.py:Vec2Array.longest", "planar/vector.py:Vec2Array.shortest"]}
{"id": "C32", "title": "Operator order does not matter when a vector meets an array", "statement": "For a Vec2 v and a Vec2Array a of any length, v+a == a+v and v*a == a*v (element-wise).", "quantifier": "arrays of every length", "why_tests_cant": "The operand order dispatches to different methods; the length of the array selects the branch.", "anchors": ["planar/vector.py:Vec2.__add__", "planar/vector.py:Vec2.__mul__", "planar/vector.py:Vec2Array.__radd__", "planar/vector.py:Vec2Array.__rmul__"]}
{"id": "C33", "title": "Array clamp/normalize", "statement": "arr.clamp/arr.normalize leave in the array element-wise v.clamped/v.normalized of the old elements, agreeing with the non-mutating clamped()/normalized(); when they raise (min_length<0, or min_length>max_length on a non-empty array) the array is unchanged.", "quantifier": "all arrays and bounds", "why_tests_cant": "Induction on length plus failure atomicity.", "anchors": ["planar/vector.py:Vec2Array.clamp", "planar/vector.py:Vec2Array.clamped", "planar/vector.py:Vec2Array.normalize"]}
{"id": "C34", "title": "direction and normal stay a right-handed unit pair", "statement": "After construction by any constructor and any history of assignments to direction, normal, offset, anchor, vector, end and in-place transforms, a Line/Ray/LineSegment has a unit direction and a unit normal with normal == -direction.perpendicular(); a failing assignment raises ValueError and leaves direction and normal unchanged.", "quantifier": "every history of mutations", "why_tests_cant": "Invariant over histories.", "anchors": ["planar/line.py:_LinearGeometry.direction", "planar/line.py:_LinearGeometry.normal", "planar/line.py:Line", "planar/line.py:Ray", "planar/line.py:LineSegment"]}
{"id": "C35", "title": "Line.distance_to is the signed distance and sides partition the plane", "statement": "|line.distance_to(p)| is the least distance from p to any point of the line, attained; for EPSILON>0 exactly one of point_left, point_right, contains_point holds for every p; reversing direction swaps left and right.", "quantifier": "all lines and points", "why_tests_cant": "Minimum over infinitely many points of the line.", "anchors": ["planar/line.py:Line.distance_to", "planar/line.py:Line.point_left", "planar/line.py:Line.point_right", "planar/line.py:Line.contains_point"]}
{"id": "C36", "title": "Line.project and Line.reflect", "statement": "line.project(p) lies on the line, is the closest point of the line to p and is idempotent; line.reflect is an involution preserving distances, negating distance_to, with fixed points exactly the line, and p, reflect(p) have project(p) as midpoint.", "quantifier": "all lines and points (EPSILON<1)", "why_tests_cant": "Universal geometry law.", "anchors": ["planar/line.py:Line.project", "planar/line.py:Line.reflect"]}
{"id": "C37", "title": "Line construction", "statement": "Line(point,d) passes through point with direction d/|d|; ValueError exactly when d is null within EPSILON. Line.from_points(ps) succeeds only if all points lie on the line within EPSILON, the result contains the first two distinct points exactly; line.from_points(line.points)==line; from_normal, parallel and perpendicular pass through the stated places.", "quantifier": "all points, directions, and point sequences of any length", "why_tests_cant": "Induction over the iterable; round-trip over all lines.", "anchors": ["planar/line.py:Line.__init__", "planar/line.py:Line.from_points", "planar/line.py:Line.from_normal", "planar/line.py:Line.points", "planar/line.py:Line.parallel", "planar/line.py:Line.perpendicular"]}
{"id": "C38", "title": "Ray queries", "statement": "ray.distance_to(p) is the least distance from p to any point of the ray, attained; point_behind, point_left, point_right are mutually exclusive, none of them holds of a point the ray contains, and a point of which none holds is less than sqrt(2)*EPSILON from the ray; ray.project(p) is a point within EPSILON of the ray, at distance at most distance_to(p) from p and exactly the closest point when p is not within the EPSILON band behind the anchor; ray.from_points(ray.points)==ray.", "quantifier": "all rays and points", "why_tests_cant": "Minimum over infinitely many points.", "anchors": ["planar/line.py:Ray.distance_to", "planar/line.py:Ray.project", "planar/line.py:Ray.point_behind", "planar/line.py:Ray.from_points"]}
{"id": "C39", "title": "LineSegment.distance_to is the distance to the segment", "statement": "segment.distance_to(p) is the least distance from p to any point between the end points, attained.", "quantifier": "all segments (however constructed) and points", "why_tests_cant": "Minimum over infinitely many points; depends on how the segment was constructed.", "anchors": ["planar/line.py:LineSegment.distance_to", "planar/line.py:LineSegment.from_normal"]}
{"id": "C40", "title": "LineSegment end points, vector and projection", "statement": "LineSegment(a,v) has start a, end a+v, length |v|, mid a+v/2; assigning end moves only the end; project(p) is within EPSILON of the segment and the closest point outside the EPSILON bands; a segment with a null vector is accepted while one with 0<|v|<=EPSILON raises ValueError; point_behind, point_ahead, point_left, point_right are mutually exclusive, none of them holds of a point the segment contains, and a point of which none holds is less than sqrt(2)*EPSILON from the segment.", "quantifier": "all anchors, vectors, points", "why_tests_cant": "Universal law plus threshold cases.", "anchors": ["planar/line.py:LineSegment.vector", "planar/line.py:LineSegment.end", "planar/line.py:LineSegment.mid", "planar/line.py:LineSegment.project"]}
{"id": "C41", "title": "LineSegment.from_points", "statement": "LineSegment.from_points(ps) starts at the first point, ends at a point of ps furthest from it, and succeeds exactly when every given point is within EPSILON of the segment (and the extent is zero or > EPSILON).", "quantifier": "all point sequences of any length", "why_tests_cant": "Induction over the iterable.", "anchors": ["planar/line.py:LineSegment.from_points"]}
{"id": "C42", "title": "Transforming lines, rays and segments", "statement": "T*shape contains T*p for every point p of the shape, and every point of T*shape is such an image (when it does not raise).", "quantifier": "all transforms and linear shapes", "why_tests_cant": "Set equality over all points of the shape.", "anchors": ["planar/line.py:Line.__imul__", "planar/line.py:Ray.__imul__", "planar/line.py:LineSegment.__imul__", "planar/transform.py:Affine.__mul__"]}
{"id": "C43", "title": "A polygon has at least three vertices", "statement": "Every Polygon object has at least 3 vertices: constructors raise ValueError otherwise, and no operation changes the number of vertices.", "quantifier": "all constructor arguments and histories", "why_tests_cant": "Invariant over all construction paths.", "anchors": ["planar/polygon.py:Polygon.__init__", "planar/polygon.py:Polygon.from_points", "planar/polygon.py:Polygon.star", "planar/polygon.py:Polygon.regular"]}
{"id": "C44", "title": "Cached polygon classification never goes stale", "statement": "For a polygon built without declared flags, after any history of vertex assignments, in-place transforms and property reads, is_convex, is_simple, centroid and bounding_box return what a fresh polygon with the current vertices would return, and reading twice gives the same answer.", "quantifier": "every history of mutations and reads", "why_tests_cant": "Quantifies over histories; staleness shows only in particular orders.", "anchors": ["planar/polygon.py:Polygon._clear_cached_properties", "planar/polygon.py:Polygon.__setitem__", "planar/polygon.py:Polygon.__imul__", "planar/polygon.py:Polygon.is_convex", "planar/polygon.py:Polygon.is_simple", "planar/polygon.py:Polygon.centroid", "planar/polygon.py:Polygon.bounding_box"]}
{"id": "C45", "title": "is_convex is correct", "statement": "is_convex is True iff the polygon is convex: all vertices lie on one side of every edge and the boundary is traversed once.", "quantifier": "all vertex sequences of any length", "why_tests_cant": "Local turn test versus a global property; induction over the boundary.", "anchors": ["planar/polygon.py:Polygon._classify", "planar/polygon.py:Polygon.is_convex"]}
{"id": "C46", "title": "is_simple is correct", "statement": "For a polygon not already known convex, is_simple is False iff two non-adjacent edges share a point.", "quantifier": "all vertex sequences of any length, all coincidences", "why_tests_cant": "Sweep-order coincidences (shared end points, collinear overlaps) are measure-zero for random tests.", "anchors": ["planar/polygon.py:Polygon._check_is_simple", "planar/polygon.py:Polygon._segments_intersect"]}
{"id": "C47", "title": "centroid is the area centroid", "statement": "For a simple polygon of non-zero area centroid is the area-weighted centroid (1/6A)*sum (vi+vj)*cross(vi,vj), independent of the starting vertex and winding, moves with translations and linear maps, is the mean of the vertices for triangles; it is None for non-simple polygons and raises ZeroDivisionError for zero area.", "quantifier": "all polygons of any size", "why_tests_cant": "Sum over arbitrarily many vertices.", "anchors": ["planar/polygon.py:Polygon.centroid"]}
{"id": "C48", "title": "contains_point on a general polygon counts windings", "statement": "For a polygon with nothing cached and at least 4 vertices, contains_point(p) is True iff the signed number of boundary crossings of the leftward horizontal ray from p is non-zero; the bounding-box shortcut never changes the answer; the answer is independent of the starting vertex and of winding direction and is translation invariant.", "quantifier": "all polygons of any size, all points", "why_tests_cant": "Induction over edges; boundary points.", "anchors": ["planar/polygon.py:Polygon._pnp_winding_test", "planar/polygon.py:Polygon.contains_point"]}
{"id": "C49", "title": "contains_point is False outside the convex hull", "statement": "If contains_point answers True through the winding or bounding-box path then the point is a convex combination of the vertices; in particular it is inside every disk and half-plane that contains all the vertices. For polygons whose is_convex is right (see C45) this holds after any history of reads, vertex assignments and in-place transforms.", "quantifier": "all polygons, all points", "why_tests_cant": "Separation argument over all half-planes.", "anchors": ["planar/polygon.py:Polygon._pnp_winding_test"]}
{"id": "C50", "title": "Triangle containment agrees with the general test", "statement": "For a triangle whose edges at the middle vertex are not null within EPSILON, contains_point gives the same answer as the general winding rule for every Vec2 point, including every boundary point; both accept any point argument that the other accepts.", "quantifier": "all triangles and points", "why_tests_cant": "Boundary points in every orientation.", "anchors": ["planar/polygon.py:Polygon._pnp_triangle_test"]}
{"id": "C51", "title": "Convex containment agrees with the general test", "statement": "For a convex polygon contains_point gives the same answer whether or not is_convex has been read before.", "quantifier": "all convex polygons and points", "why_tests_cant": "Depends on which vertices are extreme and on the order of vertices.", "anchors": ["planar/polygon.py:Polygon._pnp_y_monotone_test", "planar/polygon.py:Polygon._split_y_polylines"]}
{"id": "C52", "title": "contains_point never depends on earlier reads and never raises", "statement": "For a polygon built without declared flags, contains_point(p) for a Vec2 p returns (does not raise) and returns the same answer after any history of property reads.", "quantifier": "every history of reads", "why_tests_cant": "Quantifies over histories of reads.", "anchors": ["planar/polygon.py:Polygon.contains_point", "planar/polygon.py:Polygon.centroid", "planar/polygon.py:Polygon.is_convex"]}
{"id": "C53", "title": "Radial shortcuts of regular and star polygons are sound", "statement": "For Polygon.regular and Polygon.star the centre-distance shortcut gives the answer of the general winding rule: points nearer than the inner radius are inside, points farther than the outer radius are outside.", "quantifier": "all vertex counts, radii, centres, start angles, points", "why_tests_cant": "Trigonometric inequality for all n.", "anchors": ["planar/polygon.py:Polygon.regular", "planar/polygon.py:Polygon.star", "planar/polygon.py:Polygon.contains_point"]}
{"id": "C54", "title": "Shapes sharing edges never both claim a point", "statement": "If two polygons both contain p (general winding rule) then there is a point arbitrarily close to p, on neither boundary, that both contain: polygons with disjoint interiors never both contain a point. Cutting a polygon along a chord splits the winding number additively, so for windings 0/1 exactly one part contains each contained point.", "quantifier": "all polygons, all points, including all shared-edge points", "why_tests_cant": "Coincident-boundary positions in every orientation.", "anchors": ["planar/polygon.py:Polygon._pnp_winding_test"]}
{"id": "C55", "title": "Polygon equality", "statement": "== on polygons is reflexive, symmetric and transitive, != is its negation; polygons equal up to starting vertex and winding direction are ==; conversely == polygons have the same boundary up to starting vertex and winding.", "quantifier": "all polygons, all rotations and reversals", "why_tests_cant": "Equivalence and cyclic-sequence identity over all lengths.", "anchors": ["planar/polygon.py:Polygon.__eq__", "planar/polygon.py:Polygon.__ne__"]}
{"id": "C56", "title": "Copies are equal and independent", "statement": "copy(p) and deepcopy(p) are == p, answer is_convex, is_simple, centroid, bounding_box as p would, and later mutations of either do not affect the other.", "quantifier": "all polygon states and later histories", "why_tests_cant": "Aliasing over histories.", "anchors": ["planar/polygon.py:Polygon.__copy__", "planar/polygon.py:Polygon.__deepcopy__"]}
{"id": "C57", "title": "convex_hull", "statement": "Polygon.convex_hull(points): every hull vertex is one of the points and every point lies inside or on the hull. Points on one line give a degenerate triangle with the same property; no points raise IndexError, fewer than three distinct points ValueError. No vertex is listed twice (unless all points have the same x), and the hull of a hull is a copy of it.", "quantifier": "all point sequences", "why_tests_cant": "All configurations; the adaptive sort branch is only reached for special distributions.", "anchors": ["planar/polygon.py:Polygon.convex_hull", "planar/polygon.py:_adaptive_quick_hull", "planar/polygon.py:_ahull_partition_points", "planar/polygon.py:_ahull_sort_points"]}
{"id": "C58", "title": "tangents_to_point returns tangent vertices", "statement": "For a convex polygon and an exterior point p, tangents_to_point(p) returns two vertices of the polygon such that all vertices are on one side of the line from p through each; for every polygon and point the results are vertices of the polygon and no exception is raised.", "quantifier": "all polygons and points", "why_tests_cant": "Induction over boundary; binary-search index safety.", "anchors": ["planar/polygon.py:Polygon._pt_tangents", "planar/polygon.py:Polygon._left_tan_i_convex", "planar/polygon.py:Polygon._right_tan_i_convex", "planar/polygon.py:Polygon.tangents_to_point"]}
{"id": "C59", "title": "regular and star vertices", "statement": "Polygon.regular(n,r,c,a) has exactly n vertices, all at distance |r| from c, vertex k at angle a+360k/n, with centroid c; star(k,r1,r2) has 2k vertices alternating distances |r1|,|r2|; fewer than 3 vertices / 2 peaks raise ValueError.", "quantifier": "all counts, radii, centres, angles", "why_tests_cant": "Induction over the construction loop.", "anchors": ["planar/polygon.py:Polygon.regular", "planar/polygon.py:Polygon.star"]}
{"id": "C60", "title": "repr arguments rebuild an equal object", "statement": "The constructor call printed by repr of a Vec2, Affine, BoundingBox, Line, Ray, LineSegment or Polygon, evaluated with exact numbers, builds an object == to the original.", "quantifier": "all objects reachable by the API", "why_tests_cant": "Round-trip over all states; number formatting itself is Python runtime.", "anchors": ["planar/vector.py:Vec2.__repr__", "planar/transform.py:Affine.__repr__", "planar/box.py:BoundingBox.__repr__", "planar/line.py:Line.__repr__", "planar/polygon.py:Polygon.__repr__"]}
{"id": "C61", "title": "contains_point is constant on regions", "statement": "contains_point answers the same at any two points joined by a segment that does not touch the boundary; a point strictly on one and the same side of every edge is inside; a point strictly beyond some edge of a convex polygon is outside.", "quantifier": "all polygons, all pairs of points", "why_tests_cant": "Topological statement over all polygons and segments.", "anchors": ["planar/polygon.py:Polygon.contains_point", "planar/polygon.py:Polygon._pnp_winding_test"]}
{"id": "C62", "title": "boxes are never inverted", "statement": "Every BoundingBox returned by the API (constructor, from_points, from_shapes, from_center, inflate, fit, * with a rectilinear transform) has min_point.x <= max_point.x and min_point.y <= max_point.y, also for negative widths and negative inflation.", "quantifier": "all chains of box operations", "why_tests_cant": "Induction over arbitrary chains of box operations.", "anchors": ["planar/box.py:BoundingBox._init_min_max", "planar/box.py:BoundingBox.from_center", "planar/box.py:BoundingBox.inflate", "planar/box.py:BoundingBox.__mul__"]}
{"id": "C63", "title": "declared flags are trusted until the polygon changes, and correct ones change nothing", "statement": "If is_convex and is_simple passed to Polygon(...) are what the polygon would compute, no property answers differently because of them, after any history. Right or wrong, a declared is_convex (and is_simple with it) is answered after any reads and queries, for triangles both are always True; after a vertex assignment or an in-place transform every declaration is forgotten. contains_point of a polygon declared not convex answers by the winding rule whatever is read, and correct declarations do not change contains_point.", "quantifier": "all vertex lists, flags and histories", "why_tests_cant": "Ranges over all histories of reads and writes on an object with caches.", "anchors": ["planar/polygon.py:Polygon.__init__", "planar/polygon.py:Polygon._clear_cached_properties", "planar/polygon.py:Polygon.is_convex", "planar/polygon.py:Polygon.is_simple"]}
{"id": "C64", "title": "the ..._known properties", "statement": "is_convex_known, is_simple_known and is_centroid_known are False right after a change (except that convexity and simplicity of triangles are known), True after the property was read, stay True under reads and queries, and while True reading the property changes nothing.", "quantifier": "all polygons, states and operations", "why_tests_cant": "Ranges over all reachable cache states.", "anchors": ["planar/polygon.py:Polygon.is_convex_known", "planar/polygon.py:Polygon.is_simple_known", "planar/polygon.py:Polygon.is_centroid_known"]}
{"id": "C65", "title": "contains_point commutes with invertible transforms", "statement": "For an invertible transform t and a point p on no edge of the polygon, (polygon * t).contains_point(t * p) equals polygon.contains_point(p); the winding number is unchanged by orientation preserving transforms and negated by orientation reversing ones. For points on the boundary this can fail.", "quantifier": "all polygons, invertible transforms and points off the boundary", "why_tests_cant": "Geometric invariance over all polygons and all transforms.", "anchors": ["planar/polygon.py:Polygon.contains_point", "planar/polygon.py:Polygon._pnp_winding_test", "planar/polygon.py:Polygon.__mul__"]}
{"id": "C66", "title": "is_convex and is_simple are unchanged by invertible transforms", "statement": "Transforming a polygon by an invertible transform does not change is_convex (last two vertices distinct), nor is_simple when the polygon is in general position or does not touch itself. For polygons touching themselves is_simple can change.", "quantifier": "all polygons and invertible transforms", "why_tests_cant": "Geometric invariance over all polygons and all transforms.", "anchors": ["planar/polygon.py:Polygon.is_convex", "planar/polygon.py:Polygon._classify", "planar/polygon.py:Polygon.is_simple", "planar/polygon.py:Polygon._check_is_simple", "planar/polygon.py:Polygon.__mul__"]}
{"id": "C67", "title": "== polygons are interchangeable", "statement": "If two polygons are ==, so are their transforms; asked before anything else they contain the same points; and after any histories they have the same bounding_box, and, when their vertices are distinct, the same is_convex, is_simple and centroid (also None or ZeroDivisionError).", "quantifier": "all pairs of == polygons, all transforms, points and histories", "why_tests_cant": "Congruence of an equality over all polygons and histories.", "anchors": ["planar/polygon.py:Polygon.__eq__", "planar/polygon.py:Polygon.contains_point", "planar/polygon.py:Polygon.is_convex", "planar/polygon.py:Polygon.is_simple", "planar/polygon.py:Polygon.centroid", "planar/polygon.py:Polygon.bounding_box"]}
{"id": "C68", "title": "what is exact in floating point", "statement": "Also with rounded arithmetic: vector addition commutes, adding null, multiplying by 1 and negating twice change nothing, a - b is null only for equal vectors and is the negative of b - a; dot is symmetric, cross antisymmetric, a.cross(a) and a.dot(a.perpendicular()) are 0, squared lengths are >= 0; the identity transform is neutral, translations and scales apply with a single rounding; lerp hits both ends; almost_equals is symmetric.", "quantifier": "all numbers with correctly rounded (or any monotone, sign-symmetric, exact-where-representable) operations", "why_tests_cant": "Ranges over all pairs of floats and all rounding errors.", "anchors": ["planar/vector.py:Vec2.__add__", "planar/vector.py:Vec2.cross", "planar/vector.py:Vec2.lerp", "planar/transform.py:Affine.__mul__", "planar/vector.py:Vec2.almost_equals"]}
{"id": "C69", "title": "floating point containment stays inside the bounding box", "statement": "Whatever the rounding errors, a polygon that was not classified yet never reports a point outside its bounding_box as contained.", "quantifier": "all polygons with at least four vertices, all points, all rounding errors", "why_tests_cant": "Ranges over all floats; failures need special magnitudes.", "anchors": ["planar/polygon.py:Polygon.contains_point", "planar/polygon.py:Polygon._pnp_winding_test", "planar/polygon.py:Polygon.bounding_box"]}
{"id": "C70", "title": "on a grid floating point answers are the exact ones", "statement": "If all coordinates are multiples of one power of two 2^e with -537 <= e <= 485, at most 2^25 of them (for hulls and triangles -255 <= e <= 242 and 2^11), is_convex, is_simple, bounding_box, contains_point, tangents_to_point and convex_hull computed with doubles give exactly the answers of exact arithmetic, after any history of such assignments, reads and queries.", "quantifier": "all polygons, points and histories on all such grids", "why_tests_cant": "Ranges over all inputs on the grid; needs that no intermediate result is rounded (or that it does not matter).", "anchors": ["planar/polygon.py:Polygon.is_convex", "planar/polygon.py:Polygon.is_simple", "planar/polygon.py:Polygon.contains_point", "planar/polygon.py:Polygon.tangents_to_point", "planar/polygon.py:Polygon.convex_hull", "planar/polygon.py:Polygon._pnp_triangle_test"]}
{"id": "C71", "title": "operators between vectors, arrays, sequences, polygons and transforms", "statement": "For + - * / // and every pair of operands: a supported combination gives the documented class (an array with a sequence the class of the sequence; a transform the class of the other operand, from either side), item by item what the operator gives for single vectors; sequences of different lengths raise ValueError, zero divisors ZeroDivisionError, everything else TypeError. In-place forms change arrays (and, for *= with a transform, sequences and polygons) to the value of the plain form and never change vectors or transforms.", "quantifier": "all operators, all operands of all lengths", "why_tests_cant": "Python dispatch chooses between a dozen methods by class and, through unpacking, by length.", "anchors": ["planar/vector.py:Vec2.__add__", "planar/vector.py:Vec2.__mul__", "planar/vector.py:Vec2.__rtruediv__", "planar/vector.py:Vec2Array.__add__", "planar/vector.py:Vec2Array.__sub__", "planar/vector.py:Vec2Array.__rsub__", "planar/vector.py:Vec2Array.__imul__", "planar/vector.py:Seq2.__imul__", "planar/transform.py:Affine.__mul__", "planar/transform.py:Affine.__rmul__", "planar/transform.py:Affine.__imul__"]}
{"id": "C72", "title": "sequence objects do not share state", "statement": "In every program with any number of Seq2, Vec2Array and Polygon objects each object behaves like an independent value: copies, slices, conversions, from_points and operator results keep their items when the original is changed and vice versa, a statement changes at most the object it is applied to, and an object may be its own argument (a[:] = a, a += a, a.extend(a)).", "quantifier": "all programs of constructors, copies, slices, item and slice assignments, deletions, append, insert, extend, normalize, clamp, operators and in-place operators", "why_tests_cant": "Aliasing shows only in particular interleavings of operations on several objects.", "anchors": ["planar/vector.py:Seq2.__init__", "planar/vector.py:Seq2.from_points", "planar/vector.py:Seq2.__copy__", "planar/vector.py:Vec2Array.__getitem__", "planar/vector.py:Vec2Array.__setitem__", "planar/vector.py:Vec2Array.extend", "planar/vector.py:Vec2Array.__iadd__", "planar/transform.py:Affine.itransform"]}
{"id": "C73", "title": "== and hash between objects of all classes", "statement": "a == b never raises, is reflexive, symmetric and transitive whatever the classes of a and b, != is its negation, and equal hashable objects have equal hashes, so that vectors, transforms and tuples can be exchanged for one another as dict keys; shapes of different classes are never equal.", "quantifier": "all pairs (triples) of vectors, transforms, sequences, polygons, shapes, numbers, nested tuples and lists, and foreign objects", "why_tests_cant": "Ranges over all pairs of classes and all nested values; the answer depends on which class Python asks first.", "anchors": ["planar/vector.py:Vec2.__eq__", "planar/vector.py:Vec2.__ne__", "planar/vector.py:Vec2.__hash__", "planar/vector.py:Seq2.__eq__", "planar/vector.py:Seq2.__hash__", "planar/transform.py:Affine.__hash__", "planar/box.py:BoundingBox.__eq__", "planar/line.py:Line.__eq__", "planar/line.py:Ray.__eq__", "planar/line.py:LineSegment.__eq__", "planar/polygon.py:Polygon.__eq__"]}
{"id": "C74", "title": "no internal errors whatever the arithmetic", "statement": "On any polygon object built through the API, in any state, and with any floats, contains_point and tangents_to_point of a Vec2, bounding_box, is_convex and is_simple raise nothing, centroid raises at most ZeroDivisionError, and Polygon.convex_hull raises at most ValueError (hull of fewer than three vertices) or IndexError (no points): never an IndexError of an internal list, an UnboundLocalError or a TypeError.", "quantifier": "all polygon objects, histories and points; all rounding errors, overflows, infinities and NaNs", "why_tests_cant": "An internal list is indexed by a bisection whose invariants depend on rounding; failures need special magnitudes and histories.", "anchors": ["planar/polygon.py:Polygon.contains_point", "planar/polygon.py:Polygon._pnp_y_monotone_test", "planar/polygon.py:Polygon._split_y_polylines", "planar/polygon.py:Polygon.tangents_to_point", "planar/polygon.py:Polygon.centroid", "planar/polygon.py:Polygon.convex_hull", "planar/polygon.py:_ahull_partition_points"]}
{"id": "C75", "title": "polygons with horizontal and vertical edges are exact in floating point", "statement": "For a polygon with at least four vertices whose edges are all horizontal or vertical and not shorter than one unit (or of any length when products do not underflow), whatever the magnitudes of the coordinates, is_convex, is_simple, bounding_box and contains_point of any point give in floating point exactly the answers of exact arithmetic, after any history of such reads and queries and after any assignment or in-place transform that leaves such a polygon; so such polygons tile: cut along a horizontal or vertical chord every point of the polygon is in exactly one part.", "quantifier": "all floats (of any precision, with or without underflow), all such polygons with any number of vertices, all points and histories", "why_tests_cant": "Ranges over all magnitudes and rounding errors; with slanted edges, or edges so short that products underflow, the same statement is false.", "anchors": ["planar/polygon.py:Polygon.is_convex", "planar/polygon.py:Polygon.is_simple", "planar/polygon.py:Polygon.contains_point", "planar/polygon.py:Polygon._pnp_winding_test", "planar/polygon.py:Polygon._pnp_y_monotone_test", "planar/polygon.py:Polygon.bounding_box"]}
{"id": "C76", "title": "bounding box, centroid and tangents move with the polygon", "statement": "Transforming a polygon, in place or not, transforms what is derived from it: for rectilinear transforms bounding_box of the image is the image of bounding_box, for others it is inside the bounding box of that image; for invertible transforms the centroid (of a polygon in general position or not touching itself) is the image of the centroid, None or ZeroDivisionError exactly when it was before; and tangents_to_point of the image point returns the images of the tangent vertices for positive determinants (any polygon, any point), and for mirroring transforms tangents on the same lines with left and right exchanged.", "quantifier": "all polygons, histories of reads and edits, transforms and points", "why_tests_cant": "Equivariance over all transforms and all histories.", "anchors": ["planar/polygon.py:Polygon.bounding_box", "planar/polygon.py:Polygon.centroid", "planar/polygon.py:Polygon.tangents_to_point", "planar/polygon.py:Polygon.__imul__", "planar/box.py:BoundingBox.__mul__", "planar/transform.py:Affine.__mul__"]}
{"id": "C77", "title": "away from the edges floating point answers are the exact ones", "statement": "In double precision, with coordinates of at most 2^510: a polygon with at least four vertices contains a point that is horizontally farther from the edges at its height than M/2^48 (about 4e-15 times the largest coordinate M) exactly when its exact winding number is not zero; if no corner is too flat (cross product above 2^-51 of its terms), is_convex is True exactly for convex polygons, and is_convex, bounding_box, contains_point of such points (and is_simple, when vertices are as clear of the edges they do not end) are those of exact arithmetic after any history of reads and queries at any points, and so are the vertices that tangents_to_point returns for a point that sees every edge and every two vertices under a clear angle: from outside the convex hull they are tangent vertices. A triangle of size S (corners more than 1.5 EPSILON apart) that fills a quarter of its square contains a point within R of its corners and farther than R/2^40 from its edges exactly when the exact winding number is not zero, after any history, edits included.", "quantifier": "all doubles up to 2^510, all such polygons with any number of vertices, declared flags, histories and points", "why_tests_cant": "Ranges over all rounding errors; needs an error bound for every orientation test, not a sample of points.", "anchors": ["planar/polygon.py:Polygon.is_convex", "planar/polygon.py:Polygon.is_simple", "planar/polygon.py:Polygon.contains_point", "planar/polygon.py:Polygon._pnp_winding_test", "planar/polygon.py:Polygon._pnp_y_monotone_test", "planar/polygon.py:Polygon._pnp_triangle_test", "planar/polygon.py:Polygon._classify", "planar/polygon.py:Polygon.tangents_to_point"]}
{"id": "C78", "title": "unit vectors, lines, rays and segments in double precision", "statement": "In double precision, with EPSILON between 2^-500 and 1/2: normalized never raises and gives the unit vector along v up to a relative 2^-50 in each component, or the null vector when v is shorter than EPSILON (up to a relative 2^-50) or so long that its squares overflow (null from 2^513 on, never up to 2^510); assigning direction or normal, and constructing lines, rays and segments, raises ValueError for exactly those vectors and otherwise leaves a direction that is that unit vector and a normal exactly at right angles to it. For coordinates up to M, distance_to of a line, ray or segment is the exact distance up to M/2^46 (M/2^44 for LineSegment.from_points), so point_left, point_right and contains_point, and the decision of from_points to reject a point, are those of exact arithmetic except within that margin of EPSILON. parallel and perpendicular of a line never raise: their directions are exact up to 2^-48 (also relative to the vector the first line was made with), the new line contains the given point exactly, and its distances are exact up to M/2^45. The same holds for the line property of a ray and of a segment (along the x-axis when the length of the segment's vector is computed as zero). A segment's end is anchor + vector, its mid anchor + vector/2 and its length that of the vector, up to M/2^48. The two points of a line are on it up to (M+1)/2^46, and contained in it when EPSILON is above (M+1)/2^43. Assigning vector or end to a segment in any state raises ValueError and changes nothing, or keeps the anchor and gives the vector up to M/2^47, the end up to M/2^46. point_behind, point_ahead, point_left and point_right of rays and segments are those of exact arithmetic except within M/2^46 ((M+1)/2^46 for segments) of EPSILON. from_normal of lines and segments raises ValueError for exactly the normals shorter than EPSILON and otherwise (up to 2^510) makes a line whose normal is the unit vector along the given one, whose distances are exact up to M/2^46, or a segment whose anchor is exact up to M/2^48 and whose length is the rounded difference of the two distances.", "quantifier": "all doubles, vectors and points up to the stated magnitude, all lists of points", "why_tests_cant": "Ranges over all rounding errors of a chain of multiplications, sums, a square root and divisions.", "anchors": ["planar/vector.py:Vec2.normalized", "planar/vector.py:Vec2.length", "planar/line.py:_LinearGeometry.direction", "planar/line.py:_LinearGeometry.normal", "planar/line.py:Line.__init__", "planar/line.py:Line.distance_to", "planar/line.py:Line.point_left", "planar/line.py:Line.point_right", "planar/line.py:Line.from_points", "planar/line.py:Ray.distance_to", "planar/line.py:Ray.from_points", "planar/line.py:LineSegment.distance_to", "planar/line.py:LineSegment.contains_point", "planar/line.py:LineSegment.from_points", "planar/line.py:Line.parallel", "planar/line.py:Line.perpendicular", "planar/line.py:Ray.line", "planar/line.py:LineSegment.line", "planar/line.py:LineSegment.end", "planar/line.py:LineSegment.mid", "planar/line.py:Line.points", "planar/line.py:LineSegment.vector", "planar/line.py:Ray.point_behind", "planar/line.py:Ray.point_left", "planar/line.py:Ray.point_right", "planar/line.py:LineSegment.point_ahead", "planar/line.py:LineSegment.point_behind", "planar/line.py:LineSegment.point_left", "planar/line.py:LineSegment.point_right", "planar/line.py:Line.from_normal", "planar/line.py:LineSegment.from_normal"]}
{"id": "C79", "title": "transforms in double precision", "statement": "In double precision a transformed point (every vertex of a transformed polygon, in place or not) is the exact image up to 2^-51 of the sum of the absolute values of the terms of each coordinate; the entries of a product of transforms are those of the matrix product with the same relative error, and the determinant likewise. ~T returns or raises TransformNotInvertible, nothing else, and raises exactly for determinants below EPSILON except within that error of EPSILON; what it returns has the entries of the exact inverse matrix up to a relative 2^-50 (2^-49 for the translation) times the amount of cancellation in the determinant. A product of transforms applied to a point, and two transforms applied one after the other, are the exact images up to 2^-48 of the sum of the absolute values of the terms; so they agree up to rounding when they do in exact arithmetic (C14). ~T * (T * p) is p, and polygon *= T; polygon *= ~T brings every vertex back, up to 2^-48 of the sum of the absolute values of all the terms times that amount, for the transforms ~T undoes in exact arithmetic (without translation, or with equal skew entries: C15). ~T * T and T * ~T are the identity up to 2^-48 of the terms of each entry times that amount, for every transform. is_rectilinear is exact; almost_equals, is_conformal, is_orthonormal and is_degenerate are those of exact arithmetic except within a relative error of about 2^-49 of EPSILON.", "quantifier": "all doubles up to 2^500 (2^200 for inverses), all transforms, points and polygons with any history", "why_tests_cant": "Ranges over all rounding errors; the error of an inverse depends on the cancellation in the determinant.", "anchors": ["planar/transform.py:Affine.__mul__", "planar/transform.py:Affine.itransform", "planar/transform.py:Affine.__invert__", "planar/transform.py:Affine.determinant", "planar/transform.py:Affine.is_degenerate", "planar/transform.py:Affine.almost_equals", "planar/transform.py:Affine.is_rectilinear", "planar/transform.py:Affine.is_conformal", "planar/transform.py:Affine.is_orthonormal"]}
{"id": "C80", "title": "vectors in double precision", "statement": "In double precision, for coordinates up to 2^500: dot and cross are the exact values up to 2^-51 of the sum of the absolute values of their two terms, length and distance_to up to a relative 2^-51, lerp likewise and exactly the ends for 0 and 1; <, <=, >, >= order vectors by length, and is_null and almost_equals compare with EPSILON, as exact arithmetic does except within a relative 2^-50. scaled_to, project and reflect never raise: for a vector shorter than EPSILON they return the null vector, for a longer one (each within a relative 2^-50) the vector of the asked length along it, the projection on it and the reflection in it, up to 2^-50 (2^-48 for reflect) of the length of the result's source; clamped returns the vector itself when its length is clearly within the bounds, scaled_to the bound that is violated otherwise, and raises ValueError exactly for bounds in the wrong order (a bound of 2^512 or more raises OverflowError).", "quantifier": "all doubles up to the stated magnitude, all vectors, lengths, bounds, EPSILON from 2^-500 (2^-200 for project and reflect) to 2^500", "why_tests_cant": "Ranges over all rounding errors and underflows of a chain of products, sums, a square root and quotients.", "anchors": ["planar/vector.py:Vec2.dot", "planar/vector.py:Vec2.cross", "planar/vector.py:Vec2.length", "planar/vector.py:Vec2.distance_to", "planar/vector.py:Vec2.lerp", "planar/vector.py:Vec2.__lt__", "planar/vector.py:Vec2.__ge__", "planar/vector.py:Vec2.is_null", "planar/vector.py:Vec2.almost_equals", "planar/vector.py:Vec2.scaled_to", "planar/vector.py:Vec2.project", "planar/vector.py:Vec2.reflect", "planar/vector.py:Vec2.clamped"]}
{"id": "C81", "title": "angles, rotations, regular polygons and stars in double precision", "statement": "In double precision, if the functions of math are accurate to one unit in the last place: Vec2.polar, rotated and Affine.rotation (with and without a pivot) turn by the given angle up to 2^-47 of the sizes involved, for every finite angle however large, keep lengths up to 2^-46 (2^-45), and are exact, not just close, for all multiples of 90 degrees; angle and angle_to are the exact angles in degrees up to a relative 2^-50 (2^-49) off the negative x-axis; the entries of Affine.shear are the tangents up to 2^-48 for angles up to 60 degrees; Polygon.regular and Polygon.star, with up to 2^40 vertices, put vertex i at the given distance from the centre and at the i-th of equally spaced angles up to (i + 2) / 2^48 of the radius (accumulated rounding of the angle) and 2^-52 of the centre, and its distance from the centre is right up to 2^-46 however large i is.", "quantifier": "all finite angles, all vectors, centres and radii up to 2^500, all vertex counts up to 2^40", "why_tests_cant": "Ranges over all rounding errors, including those a loop accumulates, and over all angles.", "anchors": ["planar/vector.py:Vec2.polar", "planar/vector.py:Vec2.rotated", "planar/vector.py:Vec2.angle", "planar/vector.py:Vec2.angle_to", "planar/util.py:cos_sin_deg", "planar/transform.py:Affine.rotation", "planar/transform.py:Affine.shear", "planar/polygon.py:Polygon.regular", "planar/polygon.py:Polygon.star"]}
{"id": "C82", "title": "polygons with rounded vertices contain the right points", "statement": "In double precision, a polygon with at least four vertices that were rounded or computed with errors (images of polygons under transforms, in particular) contains a point exactly when the exact polygon winds around it, provided that the point is farther from the edges of the exact polygon than the errors of the vertices plus 2^-48 of the coordinates. T * polygon and polygon *= T: 2^-46 of the terms in the images is enough, and the answer is that of the polygon about the point that T moves there. For convex polygons, whatever convexity is declared (also wrongly) and whatever was read before (so whatever is_convex makes of corners that rounding spoilt), three times the errors plus 2^-48 of the coordinates is enough, provided the leftmost and rightmost vertices are not the lowest or highest. Regular polygons with five or more vertices (whose stored radii decide quickly): n 2^-44 of the coordinates is enough, after any reads. Stars: n 2^-43, when their valleys are so deep that no edge comes nearer to the centre than the inner vertices (or the radii have opposite signs, or there are two peaks).", "quantifier": "all polygons, all errors of the vertices, all points away from the edges, all histories of reads and declared flags", "why_tests_cant": "Ranges over all rounding errors of all the vertices and of the tests at once.", "anchors": ["planar/polygon.py:Polygon.contains_point", "planar/polygon.py:Polygon._pnp_winding_test", "planar/polygon.py:Polygon._pnp_y_monotone_test", "planar/polygon.py:Polygon._split_y_polylines", "planar/polygon.py:Polygon.regular", "planar/polygon.py:Polygon.star", "planar/transform.py:Affine.__mul__"]}
{"id": "C83", "title": "bounding boxes in double precision", "statement": "Whatever the rounding, a box inflated by amounts that are not negative encloses the box, from_center encloses the centre (also for negative sizes), the computed image of every point of a box is in the computed image of the box under a transform that keeps or exchanges the axes, and fit of a box raises ZeroDivisionError exactly for boxes without width or height and nothing else. In double precision center is in the box and is its middle up to a relative 2^-52 of the sums; from_center and inflate put the sides where exact arithmetic does up to 2^-51 (2^-52) of the sizes; and fit of a box puts every side where exact arithmetic does up to 2^-49 of the coordinates of the frame, however different the sizes of the two boxes are, so the result is in the frame up to that.", "quantifier": "all boxes, points, amounts, sizes and axis-keeping transforms; any rounding for the first part, doubles up to 2^1000 (2^500 for fit) for the second", "why_tests_cant": "Ranges over all rounding errors; the ratio of the two sizes can be anywhere between 2^-1000 and 2^1000.", "anchors": ["planar/box.py:BoundingBox.inflate", "planar/box.py:BoundingBox.from_center", "planar/box.py:BoundingBox.center", "planar/box.py:BoundingBox.fit", "planar/box.py:BoundingBox.__mul__"]}
{"id": "C84", "title": "the centroid in double precision", "statement": "In double precision, after any history of reads and edits, the centroid of a polygon that is found simple is the exact centroid of the region enclosed by its stored vertices, up to n (D^2 + T)/A (T/A) M / 2^48 in each coordinate, where D is its larger extent, M bounds its coordinates, A is twice its area and T is twice the sum of the areas of the triangles from the first vertex; for convex polygons up to n (D^2/A + 1) M / 2^48. It is so for every polygon that is not too thin (n (D^2 + T) at most 2^43 A) or tiny; for thin or tiny triangles of positive area ZeroDivisionError can be raised.", "quantifier": "all polygons with coordinates up to 2^300 and extent at least 2^-300, all histories", "why_tests_cant": "Ranges over all rounding errors of a loop that adds products of differences, with cancellation.", "anchors": ["planar/polygon.py:Polygon.centroid"]}
{"id": "C85", "title": "what set_epsilon changes in objects made before it", "statement": "Whatever the rounding: raising EPSILON never makes vectors, sequences, boxes, transforms, lines, rays or segments that were almost equal cease to be so, nor a null vector, nor a rectilinear, conformal, orthonormal, degenerate or identity transform; lines, rays and segments contain no fewer points and have no more of them left, right, behind or ahead. Lines, rays and segments keep nothing of the EPSILON they were made with: a constructor or assignment that accepts its arguments under one EPSILON accepts them under every smaller one with the same result, and from_points gives the same object under any two values that accept the points. Polygons with four or more vertices do not depend on EPSILON at all, in any state and whenever it is changed. Triangles contain what fresh ones contain under the current EPSILON, except that one asked before EPSILON was raised above the distance of two of its vertices goes on answering as it did, where a fresh one contains nothing; every other property is that of a fresh polygon.", "quantifier": "all values of EPSILON with positive square (any rounding of numbers), all objects, all histories of reads, edits and set_epsilon calls", "why_tests_cant": "A property of all interleavings of set_epsilon with reads and edits, and of all pairs of values.", "anchors": ["planar/__init__.py:set_epsilon", "planar/vector.py:Vec2.almost_equals", "planar/vector.py:Vec2.is_null", "planar/vector.py:Seq2.almost_equals", "planar/box.py:BoundingBox.almost_equals", "planar/transform.py:Affine.almost_equals", "planar/line.py:_LinearGeometry.direction", "planar/line.py:Line.__init__", "planar/line.py:Line.from_points", "planar/line.py:Ray.from_points", "planar/line.py:LineSegment.from_points", "planar/polygon.py:Polygon._pnp_triangle_test", "planar/polygon.py:Polygon.contains_point"]}
{"id": "C86", "title": "documented running times of contains_point, is_convex, is_simple, centroid and bounding_box", "statement": "Counting passages of loops, comparisons of bisect and m (log2 m + 1) for sorting m items: contains_point takes a constant number of steps for triangles and when the radii of a regular polygon or star decide, at most 3 + 2 log2(n + 1) steps for convex polygons, and never more than 2n + 1; is_convex and bounding_box take O(n) steps the first time and none after that, is_simple O(n) for convex polygons and O(n^2) in the worst case, centroid O(n) when the polygon is known to be simple. (The logarithmic bound fails for deep copies and for flat polygons.)", "quantifier": "all polygon objects a program can hold, with any number of vertices and any history of operations, all points; no law of arithmetic is used", "why_tests_cant": "An asymptotic bound over all sizes, states and inputs; a benchmark only samples it.", "anchors": ["planar/polygon.py:Polygon.contains_point", "planar/polygon.py:Polygon._pnp_y_monotone_test", "planar/polygon.py:Polygon._pnp_winding_test", "planar/polygon.py:Polygon._pnp_triangle_test", "planar/polygon.py:Polygon.is_convex", "planar/polygon.py:Polygon._classify", "planar/polygon.py:Polygon.is_simple", "planar/polygon.py:Polygon._check_is_simple", "planar/polygon.py:Polygon.centroid", "planar/polygon.py:Polygon.bounding_box", "planar/polygon.py:Polygon.__deepcopy__"]}
{"id": "C87", "title": "documented running time of tangents_to_point", "statement": "tangents_to_point takes O(n) steps for every polygon, O(log n) for convex ones: at most 2 log2 n (rounded up) for a polygon with more than 20 vertices that is known to be convex and a point outside it. (Violated by polygons declared convex, and by points on the line through the last and the first vertex.)", "quantifier": "all polygons with any number of vertices and any history of operations, all points", "why_tests_cant": "An asymptotic bound over all sizes, states and inputs; the slow points are on finitely many lines and a test has no reason to try them.", "anchors": ["planar/polygon.py:Polygon.tangents_to_point", "planar/polygon.py:Polygon._pt_tangents", "planar/polygon.py:Polygon._left_tan_i_convex", "planar/polygon.py:Polygon._right_tan_i_convex"]}
{"id": "C88", "title": "documented worst case of convex_hull", "statement": "convex_hull of n points takes at most n (13 log2 n + 29) steps (charging m (log2 m + 1) for sorting m items and a constant for looking up a point in a set), for every list of points, in any order, with any repetitions and any kind of numbers (rounding, infinities and NaN included), whatever the order in which sets are iterated over.", "quantifier": "all lists of points, all orders of iteration; no law of arithmetic is used", "why_tests_cant": "The worst case over all inputs of an adaptive divide and conquer algorithm (quickhull's is quadratic).", "anchors": ["planar/polygon.py:Polygon.convex_hull", "planar/polygon.py:_adaptive_quick_hull", "planar/polygon.py:_ahull_partition_points", "planar/polygon.py:_ahull_sort_points"]}
{"id": "C89", "title": "a convex hull is what its flags say and answers contains_point correctly", "statement": "The polygon that convex_hull returns for points that are not on a line says is_convex and is_simple, at once and after any reads, and it is a convex polygon without repeated vertices whose edges meet only in common end points, with its vertices in clockwise order, also when the hull has lost points (C57). contains_point answers by the winding rule on its vertices whatever was read before (with three vertices, if they are at least EPSILON apart): points strictly on the inner side of all edges are contained, points strictly on the outer side of some edge are not.", "quantifier": "all lists of points not on a line, all orders of set iteration, all histories of reads, all query points; exact arithmetic", "why_tests_cant": "Polygons declared convex skip the check of the declaration, and their contains_point can be wrong for some vertex orders; that hulls never have such an order must hold for every input.", "anchors": ["planar/polygon.py:Polygon.convex_hull", "planar/polygon.py:_adaptive_quick_hull", "planar/polygon.py:_ahull_partition_points", "planar/polygon.py:_ahull_sort_points", "planar/polygon.py:Polygon.contains_point", "planar/polygon.py:Polygon.is_convex", "planar/polygon.py:Polygon.is_simple"]}
{"id": "C90", "title": "convex_hull depends only on the set of points", "statement": "convex_hull returns the same region for every list of the same points: the order of the list, repetitions and the order in which Python iterates over sets make no difference, and every point that is not in the hull of the others is a vertex. If no three different points are on a line the returned polygons are == (the same vertices in the same cyclic order).", "quantifier": "all pairs of lists with the same members, all pairs of iteration orders; exact arithmetic", "why_tests_cant": "Quantifies over all permutations of the input and over hash-dependent iteration orders that a test run cannot choose.", "anchors": ["planar/polygon.py:Polygon.convex_hull", "planar/polygon.py:_adaptive_quick_hull", "planar/polygon.py:_ahull_partition_points", "planar/polygon.py:_ahull_sort_points", "planar/polygon.py:Polygon.__eq__"]}
{"id": "C91", "title": "convex hulls with transforms, bounding boxes and hulls of hulls", "statement": "The bounding box of a convex hull is the bounding box of the points; a leftmost and a rightmost point are always among its vertices. If no three different points are on a line, the hull of the points transformed by a transform that is not degenerate is == to the transformed hull, also when the transform mirrors, and the hull of the vertices of a hull is == to it.", "quantifier": "all lists of points, all orders of set iteration, all transforms; exact arithmetic", "why_tests_cant": "Metamorphic relations between two runs of the algorithm, which takes different branches in each of them; they must hold for every input.", "anchors": ["planar/polygon.py:Polygon.convex_hull", "planar/polygon.py:_adaptive_quick_hull", "planar/polygon.py:Polygon.bounding_box", "planar/transform.py:Affine.__mul__", "planar/polygon.py:Polygon.__eq__"]}
{"id": "C92", "title": "exceptions of vectors, transforms, boxes, lines, rays and segments", "statement": "Whatever the numbers (rounding, infinities and NaN included), as long as EPSILON is positive: normalized, scaled_to, project and reflect of vectors never raise; clamped raises ValueError exactly when both bounds are given and min > max, otherwise OverflowError exactly when the square of a bound it compares with is too large for a float, and nothing else; ~T raises TransformNotInvertibleError exactly when T.is_degenerate and nothing else; a box of points or shapes raises ValueError exactly when there are none, from_center, inflate, to_polygon and T*box never raise, fit raises ZeroDivisionError exactly when what is fitted has zero width or height; every constructor, transform and derived line of Line, Ray and LineSegment raises only ValueError, project and repr never; a failed assignment to direction, normal, vector or end and a failed *= raise ValueError and leave the object as it was.", "quantifier": "all arguments, any arithmetic in which nothing equal to zero is above EPSILON (all positive EPSILON in exact arithmetic, in double precision and with NaN), all states of objects", "why_tests_cant": "No exception other than the documented ones for any of the infinitely many arguments, NaN and overflow included.", "anchors": ["planar/vector.py:Vec2.normalized", "planar/vector.py:Vec2.scaled_to", "planar/vector.py:Vec2.project", "planar/vector.py:Vec2.reflect", "planar/vector.py:Vec2.clamped", "planar/transform.py:Affine.__invert__", "planar/box.py:BoundingBox.from_points", "planar/box.py:BoundingBox.from_shapes", "planar/box.py:BoundingBox.fit", "planar/box.py:BoundingBox.inflate", "planar/line.py:_LinearGeometry.direction", "planar/line.py:_LinearGeometry.normal", "planar/line.py:Line.from_points", "planar/line.py:Ray.from_points", "planar/line.py:LineSegment.from_points", "planar/line.py:LineSegment.vector", "planar/line.py:Line.__imul__"]}
{"id": "C93", "title": "EPSILON2 is the square of EPSILON", "statement": "After every call of set_epsilon(e), whatever was called before, planar.EPSILON is e and planar.EPSILON2 its square; set_epsilon raises nothing. (Violated: for e of 2^512 (1.3e154) and more it raises OverflowError after having changed EPSILON, and EPSILON2 keeps the old value.)", "quantifier": "all histories of set_epsilon calls, also with exceptions that the caller caught, all numbers", "why_tests_cant": "An invariant over all histories; the failing values are far from any that a test tries.", "anchors": ["planar/__init__.py:set_epsilon", "planar/__init__.py:EPSILON", "planar/__init__.py:EPSILON2"]}
{"id": "C94", "title": "project and reflect of lines, rays and segments in double precision", "statement": "In double precision project never raises. For a line through a and a point p it is the point of the line nearest to p, and reflect is the mirror image of p, up to M / 2^44 in each coordinate, where M bounds the coordinates of a and p. For rays and segments it is at most EPSILON (and that error) from the nearest point; up to the error alone it is the nearest point if p is not beyond an end, and it is the start or the end itself if p is beyond it by more than EPSILON (and the error).", "quantifier": "all EPSILON from 2^-500 to 1/2, all objects the constructors return, all points with coordinates up to 2^500", "why_tests_cant": "Ranges over all rounding errors of normalization, dot products and additions, with cancellation.", "anchors": ["planar/line.py:Line.project", "planar/line.py:Line.reflect", "planar/line.py:Ray.project", "planar/line.py:LineSegment.project", "planar/vector.py:Vec2.project"]}
{"id": "C95", "title": "transforming lines, rays and segments in double precision", "statement": "In double precision T * line, T * ray and T * segment are the line, ray or segment through the images of its points, and *= gives the same object, up to g = B (M + 1) / 2^44, where B bounds the entries of T and M the coordinates of the object: anchors and ends are images up to g, the direction is that of the transformed unit direction W up to 3 g / |W|. If W (for segments: the image of the vector) is longer than EPSILON nothing is raised; if it is shorter, ValueError is raised and *= leaves the object as it was. (Violated: no ray that starts at a point with both coordinates 2^56 (7.2e16) or more can be transformed, not even by the identity.)", "quantifier": "all EPSILON from 2^-500 to 1/2, all objects the constructors return, all transforms, coordinates and entries up to 2^240", "why_tests_cant": "Ranges over all rounding errors of the points, of the transform and of the new direction; the failing coordinates are far from any that a test tries.", "anchors": ["planar/line.py:Line.__imul__", "planar/line.py:Ray.__imul__", "planar/line.py:LineSegment.__imul__", "planar/transform.py:Affine.__mul__", "planar/line.py:Line.from_points", "planar/line.py:Ray.from_points", "planar/line.py:LineSegment.from_points", "planar/line.py:Line.points", "planar/line.py:Ray.points", "planar/line.py:LineSegment.points"]}
{"id": "C96", "title": "reads by several threads, and interrupted reads", "statement": "Reading is safe: when several threads read is_convex, is_simple, centroid, bounding_box, contains_point or tangents_to_point of one polygon, or the properties of one transform, in any interleaving, each gets an answer it would get if the reads ran one after another; no thread waits for another (each read takes at most 24 accesses); and after reads have been interrupted at any point (KeyboardInterrupt), later reads answer as if the interrupted ones had not happened or had been completed. (Violated for polygons whose convexity is not yet known: is_convex stores True before it has looked at the vertices, and the polylines of contains_point before they are reversed. A second thread is told that a dart is convex; an interruption makes that permanent; a rhombus no longer contains its centre; and two threads that both get the right answer leave a dart that no longer contains a point inside it.)", "quantifier": "all polygons and transforms, all numbers of threads, all reads, all schedules and all points of interruption", "why_tests_cant": "Schedules and interruption points cannot be enumerated, and a test run meets the few that the interpreter happens to choose.", "anchors": ["planar/polygon.py:Polygon._classify", "planar/polygon.py:Polygon._split_y_polylines", "planar/polygon.py:Polygon.is_convex", "planar/polygon.py:Polygon.is_simple", "planar/polygon.py:Polygon.centroid", "planar/polygon.py:Polygon.bounding_box", "planar/polygon.py:Polygon.contains_point", "planar/polygon.py:Polygon.tangents_to_point", "planar/polygon.py:Polygon._pnp_y_monotone_test", "planar/util.py:cached_property"]}
{"id": "C97", "title": "assignments that are interrupted", "statement": "When poly[i] = v, poly *= T, seq *= T, an in-place operator or method of an array, extend, or a setter or *= of a line, ray or segment is interrupted at any point (KeyboardInterrupt), every attribute is as before or as after the operation; of the points the first ones, up to some index, have been transformed; arrays have all old or all new vectors. The polygon then answers about the vertices it has; and the operation can be done again with the outcome of one that was not interrupted. After any number of interruptions the next assignment to a polygon that is completed leaves a polygon the same as a new one with its vertices. (Violated: cached values of the old vertices survive an interruption just after the vertex has been replaced; *= done again transforms some vertices twice; a line is left with a normal that is not perpendicular to its direction.)", "quantifier": "all polygons, sequences, lines, rays and segments, all operations, all points of interruption, any number of them", "why_tests_cant": "Interruption points cannot be enumerated by tests, and a signal arrives at a point the test does not control.", "anchors": ["planar/polygon.py:Polygon.__setitem__", "planar/polygon.py:Polygon.__imul__", "planar/polygon.py:Polygon._clear_cached_properties", "planar/transform.py:Affine.itransform", "planar/vector.py:Vec2Array.extend", "planar/vector.py:Vec2Array.__iadd__", "planar/vector.py:Vec2Array.normalize", "planar/line.py:_LinearGeometry.direction", "planar/line.py:_LinearGeometry.normal", "planar/line.py:LineSegment.vector", "planar/line.py:LineSegment.end", "planar/line.py:Line.__imul__", "planar/line.py:Ray.__imul__", "planar/line.py:LineSegment.__imul__"]}
{"id": "C98", "title": "assignments by several threads", "statement": "When several threads assign to items of one polygon or multiply it in place, in any interleaving, each assignment with a valid index succeeds and one with an invalid index raises IndexError; each vertex always has its old value, an assigned value or the image of one under the transforms, and no longer the old one when an assignment to it has succeeded; threads that assign items leave each vertex with one of the values assigned to it; once one assignment has succeeded, and when all have ended, even with exceptions, the polygon is the same as a new one with its vertices. Threads that extend one array lose no vector and keep the order of each thread; operations of an array on items and slices, append, insert and del act as if one after another. No update is lost, and reads by other threads meanwhile are right. (Violated: bounding_box read during an assignment is stored for good with the old vertices; contains_point raises TypeError; two assignments to a triangle that has answered contains_point can raise KeyError; two poly *= T or array += v lose one of the two; two line.direction = v leave a normal that is not perpendicular.)", "quantifier": "all polygons, arrays and lines, all numbers of threads, all assignments, all schedules", "why_tests_cant": "Schedules cannot be enumerated, and a test run meets the few that the interpreter happens to choose.", "anchors": ["planar/polygon.py:Polygon.__setitem__", "planar/polygon.py:Polygon.__imul__", "planar/polygon.py:Polygon._clear_cached_properties", "planar/polygon.py:Polygon.bounding_box", "planar/polygon.py:Polygon.contains_point", "planar/transform.py:Affine.itransform", "planar/vector.py:Vec2Array.extend", "planar/vector.py:Vec2Array.__iadd__", "planar/vector.py:Vec2Array.__setitem__", "planar/vector.py:Vec2Array.insert", "planar/line.py:_LinearGeometry.direction"]}
{"id": "C99", "title": "iteration over sequences that change", "statement": "Iterating over a vector sequence, array or polygon (for loops, list(), unpacking, explicit iterators) shows its items in order and then ends, and an iterator that has ended stays ended, whatever other statements run in between and however many iterators there are, as long as no item of the object is assigned, added or removed. Items assigned or transformed in place (obj[k] = v, array *= T) before the iterator reaches them are shown with their new value, and the loop still runs len(obj) times; appended items are shown as well, so for v in array: array.append(w) never ends. Operations that replace all items (normalize, clamp, array += v, array *= 2) do not reach a loop under way: it goes on with the old items. len(obj) is the number of items and bool(obj) tells whether there are any, in every state.", "quantifier": "all programs of sequence statements, iter, next, len and bool, with any number of objects and iterators, and all interleavings of them", "why_tests_cant": "Quantifies over all programs between two calls of next; which operations assign to the list and which replace it cannot be seen from results alone.", "anchors": ["planar/vector.py:Seq2.__iter__", "planar/vector.py:Seq2.__len__", "planar/vector.py:Seq2.__bool__", "planar/vector.py:Vec2Array.append", "planar/vector.py:Vec2Array.__iadd__", "planar/vector.py:Vec2Array.normalize", "planar/vector.py:Vec2Array.clamp", "planar/transform.py:Affine.itransform"]}
