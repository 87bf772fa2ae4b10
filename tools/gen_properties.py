#!/usr/bin/env python3
"""Generates ../properties.jsonl (kept as the single source of the property texts)."""
import json, os
P = []
def p(id, title, statement, quantifier, why, anchors):
    P.append(dict(id=id, title=title, statement=statement, quantifier=quantifier,
                  why_tests_cant=why, anchors=anchors))
V="planar/vector.py"; T="planar/transform.py"; B="planar/box.py"; L="planar/line.py"; G="planar/polygon.py"; U="planar/util.py"; I="planar/__init__.py"

# ---------------- Vec2
p("C01","Vec2 arithmetic is a vector space",
  "Addition, subtraction, negation and scalar multiplication of Vec2 obey the vector-space laws: a+b==b+a, (a+b)+c==a+(b+c), (a-b)+b==a, a+(-a)==Vec2(0,0), k*(a+b)==k*a+k*b, (k*m)*a==k*(m*a), v/k==v*(1/k) for k!=0; dividing by a zero scalar or by a vector with a zero component raises ZeroDivisionError instead of returning a vector.",
  "all vectors and scalars", "A law over three arbitrary vectors and scalars; tests sample a handful of literals.",
  [f"{V}:Vec2.__add__", f"{V}:Vec2.__sub__", f"{V}:Vec2.__mul__", f"{V}:Vec2.__truediv__", f"{V}:Vec2.__neg__"])
p("C02","dot, cross and perpendicular",
  "v.perpendicular() has the same length as v, is at right angles to it (dot 0) and lies counter-clockwise (v.cross(v.perpendicular())==v.length2>=0); cross is antisymmetric and bilinear, a.cross(b)==a.perpendicular().dot(b); a.dot(b)**2 + a.cross(b)**2 == a.length2*b.length2; four applications of perpendicular give v back.",
  "all vectors", "Polynomial identities over unbounded inputs.",
  [f"{V}:Vec2.dot", f"{V}:Vec2.cross", f"{V}:Vec2.perpendicular"])
p("C03","normalized gives a unit vector or null",
  "For EPSILON>=0, v.normalized() never raises; it returns a vector of length exactly 1 pointing the same way as v when v.length > EPSILON, and the null vector otherwise.",
  "all vectors and all non-negative EPSILON", "Ranges over all reals and over the global EPSILON.",
  [f"{V}:Vec2.normalized", f"{V}:Vec2.length"])
p("C04","scaled_to and clamped bound the length",
  "For a vector longer than EPSILON, v.scaled_to(L) has length |L| and is parallel to v. v.clamped(lo,hi) raises ValueError exactly when both bounds are given and lo>hi; otherwise, for 0<=lo<=hi, its length is in [lo,hi] unless v is null within EPSILON (then it is v itself or the null vector), it is v itself whenever lo<=v.length<=hi, and it points the way v does.",
  "all vectors, all bounds (given or omitted), all EPSILON>=0", "Case analysis over the relative order of four arbitrary reals.",
  [f"{V}:Vec2.scaled_to", f"{V}:Vec2.clamped"])
p("C05","project is the orthogonal projection",
  "For v longer than EPSILON, v.project(w) is a multiple of v, w - v.project(w) is perpendicular to v, no multiple of v is closer to w, and projecting twice changes nothing; for shorter v the result is the null vector.",
  "all pairs of vectors", "Minimality over all multiples of v.", [f"{V}:Vec2.project"])
p("C06","reflect is a length-preserving involution",
  "For m longer than EPSILON, v.reflect(m).reflect(m)==v, v.reflect(m).length==v.length, vectors along m are fixed and vectors perpendicular to m are negated.",
  "all pairs of vectors", "Universal algebraic law with a division.", [f"{V}:Vec2.reflect"])
p("C07","Comparison operators are consistent",
  "Among Vec2 <,<=,>,>= are the total preorder by length (a<=b or b<=a; transitive; a<b iff not a>=b; a>b iff b<a). == compares coordinates exactly, and != is its exact negation against any sequence of any length.",
  "all vectors, and all sequences compared against", "Totality/transitivity/negation quantify over all pairs, triples and sequence lengths.",
  [f"{V}:Vec2.__eq__", f"{V}:Vec2.__ne__", f"{V}:Vec2.__lt__", f"{V}:Vec2.__le__", f"{V}:Vec2.__gt__", f"{V}:Vec2.__ge__"])
p("C08","Rotation and polar construction",
  "v.rotated(a) has the same length as v; rotating by a then b equals rotating by a+b; Vec2.polar(a,L) has length |L|; rotation by 90, 180, 270 (plus any multiple of 360) is exact, so v.rotated(90)==v.perpendicular().",
  "all vectors, lengths and angles in degrees", "Trigonometric laws over all real angles; includes the special-case table.",
  [f"{V}:Vec2.rotated", f"{V}:Vec2.polar", f"{U}:cos_sin_deg"])
p("C09","angle and angle_to",
  "v.angle is in (-180,180] and Vec2.polar(v.angle, v.length)==v. a.angle_to(b) is documented to be in (-180,180] and the smallest angle from a to b; rotating a by a.angle_to(b) gives the direction of b.",
  "all non-null vectors", "Range claim over all pairs of directions; the branch cut of atan2 is what matters.",
  [f"{V}:Vec2.angle", f"{V}:Vec2.angle_to"])
p("C10","lerp interpolates",
  "a.lerp(b,0)==a, a.lerp(b,1)==b, a.lerp(b,t)==b.lerp(a,1-t), a.lerp(b,t)-a == (b-a)*t, and for t in [0,1] the result lies on the segment: its distances to a and b add up to the distance from a to b.",
  "all vectors and biases", "Universal identity.", [f"{V}:Vec2.lerp"])
p("C11","almost_equals is a tolerance relation",
  "For Vec2, Affine, BoundingBox, Line, Ray and LineSegment: almost_equals is reflexive whenever EPSILON>0 (and never true when EPSILON==0), symmetric, and implied by == when EPSILON>0; for Vec2 it holds iff the distance is < EPSILON.",
  "all pairs of objects and every EPSILON>=0", "Ranges over EPSILON and all pairs.",
  [f"{V}:Vec2.almost_equals", f"{T}:Affine.almost_equals", f"{B}:BoundingBox.almost_equals", f"{L}:Line.almost_equals"])
# ---------------- Affine
p("C12","Affine multiplication is a monoid",
  "Affine.identity() is a two-sided unit for *, * is associative, and (A*B).determinant == A.determinant*B.determinant.",
  "all triples of transforms", "Polynomial identities in 18 unknowns.", [f"{T}:Affine.__mul__", f"{T}:Affine.determinant", f"{T}:identity"])
p("C13","~T inverts a transform",
  "~T raises TransformNotInvertibleError exactly when |determinant| < EPSILON (EPSILON>0); otherwise T*~T == ~T*T == identity and ~~T == T when that is invertible too.",
  "all transforms, all EPSILON>0", "Universal over 6 coefficients and EPSILON.", [f"{T}:Affine.__invert__", f"{T}:Affine.is_degenerate"])
p("C14","Composed transforms apply in sequence",
  "Multiplying transforms combines their effects: (A*B)*p == A*(B*p) for every point p.",
  "all pairs of transforms, all points", "Only a few pairs of commuting/symmetric transforms are tested, for which it happens to hold.",
  [f"{T}:Affine.__mul__"])
p("C15","Inverse transform undoes the transform on points",
  "For non-degenerate T, (~T)*(T*p) == p for every point.",
  "all non-degenerate transforms, all points", "Needs a transform mixing rotation/shear with translation; tests compare matrices only.",
  [f"{T}:Affine.__invert__", f"{T}:Affine.__mul__"])
p("C16","Affine application preserves affine structure and scales area by the determinant",
  "T*p is an affine map: it preserves lerp of points (hence midpoints, collinearity and parallelism), and the signed area of every polygon is multiplied by T.determinant; the identity leaves everything unchanged.",
  "all transforms, all points, all polygons of any number of vertices", "Induction over the number of vertices.",
  [f"{T}:Affine.__mul__", f"{T}:Affine.determinant", f"{G}:Polygon"])
p("C17","Elementary transforms",
  "translation(o)*p==p+o; scale(s)*p multiplies componentwise; rotation(a)*p == p.rotated(a) and has determinant 1; rotation(a,pivot)*p == (p-pivot).rotated(a)+pivot, so it fixes the pivot and preserves distances; rotation(a)*rotation(b)==rotation(a+b); scale and translation compose additively/multiplicatively.",
  "all offsets, scalings, angles, pivots, points", "Trigonometric identity over all reals.",
  [f"{T}:Affine.translation", f"{T}:Affine.scale", f"{T}:Affine.rotation", f"{T}:Affine.shear"])
p("C18","Transform classification flags",
  "is_orthonormal implies the transform preserves all distances (rigid motion) in the limit EPSILON->0, and implies |determinant| is 1; is_conformal implies angles are preserved; is_rectilinear implies axis-parallel segments stay axis-parallel; is_degenerate iff ~T raises.",
  "all transforms", "Claim about the image of every pair of points.",
  [f"{T}:Affine.is_orthonormal", f"{T}:Affine.is_conformal", f"{T}:Affine.is_rectilinear", f"{T}:Affine.is_degenerate"])
p("C19","In-place transform equals out-of-place transform",
  "For a Seq2/Vec2Array/Polygon s, s*=T (T.itransform(s)) leaves s holding, at each index, exactly T*(old s[i]), with the length unchanged, including the shortcut for the identity; for Line, Ray and LineSegment, s*=T yields the object that T*s builds, or both raise ValueError.",
  "all transforms, all sequences of any length, all linear shapes", "Induction over sequence length and over the mutation loop.",
  [f"{T}:Affine.itransform", f"{T}:Affine.__mul__", f"{V}:Seq2.__imul__", f"{G}:Polygon.__imul__", f"{L}:Line.__imul__"])
p("C20","Cached transform properties are stable",
  "A property of an immutable object read twice gives the same answer, whatever other reads happen between: determinant, is_rectilinear, ... are computed at most once per object. With EPSILON unchanged the value is that of a fresh computation; after set_epsilon the old answer is still returned for an object already asked. Inverting uses the kept is_degenerate and determinant: with EPSILON unchanged ~T after any history is what a new equal transform gives, and after set_epsilon the kept is_degenerate decides whether it raises.",
  "every history of property reads and set_epsilon calls", "A property of all interleavings of reads and set_epsilon.",
  [f"{U}:cached_property", f"{I}:set_epsilon", f"{T}:Affine.is_identity"])
# ---------------- BoundingBox
p("C21","BoundingBox is the smallest box enclosing its points",
  "BoundingBox(points) raises ValueError exactly for no points; otherwise every point lies between min_point and max_point, each side of the box touches a point, any box enclosing all the points encloses this one, and the result does not depend on the order or multiplicity of points. width, height >= 0.",
  "all non-empty finite sequences of points", "Induction over sequence length and all permutations.",
  [f"{B}:BoundingBox._init_min_max", f"{B}:BoundingBox.from_points"])
p("C22","from_shapes encloses every shape",
  "BoundingBox.from_shapes(shapes) is the smallest box enclosing the bounding boxes of all the shapes; ValueError exactly for no shapes; equals BoundingBox of all the shapes' points together.",
  "all non-empty sequences of shapes", "Induction over the number of shapes.", [f"{B}:BoundingBox.from_shapes"])
p("C23","Box containment never double counts and leaves no gaps",
  "If two boxes both contain the same point then their interiors overlap; splitting a box at any x or y gives two boxes exactly one of which contains each point of the original and none elsewhere. An empty box contains nothing.",
  "all boxes, all cut positions, all points", "Universal over boundary-coincident positions that random tests never hit.",
  [f"{B}:BoundingBox.contains_point"])
p("C24","from_center and inflate keep the centre",
  "from_center(c,w,h) has centre c, width |w| and height |h|; box.inflate(d) has the same centre and width |width+dx|, height |height+dy|.",
  "all centres, sizes and amounts, including negative", "Sign cases over arbitrary reals.",
  [f"{B}:BoundingBox.from_center", f"{B}:BoundingBox.inflate", f"{B}:BoundingBox.center"])
p("C25","fit of a box",
  "frame.fit(box), for a box of non-zero width and height, lies inside frame, has frame's centre, the box's aspect ratio, and matches the frame's width or height; with a zero width or height it raises ZeroDivisionError.",
  "all frames and boxes", "Order of two ratios over arbitrary reals.", [f"{B}:BoundingBox.fit"])
p("C26","fit of any other shape",
  "frame.fit(shape) for a polygon returns a shape that lies inside the frame.",
  "all frames and polygons", "Only checked in tests through the resulting matrix, not through the fitted shape.",
  [f"{B}:BoundingBox.fit"])
p("C27","Transforming a box",
  "For an exactly rectilinear transform T, box*T is the bounding box of the transformed corners and a point is in the closed image box iff it is the image of a point of the closed box (T invertible); for a transform that is not rectilinear box*T is the polygon of the four transformed corners in order. In both cases, for an invertible T, the image contains the images of the points inside the box and no image of a point outside it; for a transform that is rectilinear only within EPSILON the image box misses the image of a point of the box by at most EPSILON times the larger side.",
  "all boxes and transforms", "Set equality over all points.", [f"{B}:BoundingBox.__mul__", f"{B}:BoundingBox.to_polygon"])
p("C28","to_polygon has the containment of the box",
  "box.to_polygon().contains_point(p) == box.contains_point(p) for every point, also for empty boxes.",
  "all boxes and points", "Edge and corner cases for all positions.", [f"{B}:BoundingBox.to_polygon", f"{G}:Polygon.contains_point"])
# ---------------- Seq2 / Vec2Array
p("C29","Vec2Array behaves as a list of Vec2",
  "Under any sequence of append, extend, insert, del, item and slice reads and writes, a Vec2Array holds what a Python list of the corresponding Vec2 would; failing operations (bad index) raise IndexError and leave the array unchanged; a Seq2 never changes length.",
  "every finite history of operations, every index including negative", "Quantifies over operation histories.",
  [f"{V}:Vec2Array", f"{V}:Seq2"])
p("C30","Array arithmetic is element-wise",
  "arr op other for +,-,*,/ between arrays of equal length acts element by element and keeps the length; with different lengths it raises ValueError and (for in-place forms) leaves the array unchanged; with a single vector or scalar it applies to each element; in-place and out-of-place forms agree.",
  "all arrays of all lengths", "Induction on length.", [f"{V}:Vec2Array.__add__", f"{V}:Vec2Array.__iadd__", f"{V}:Vec2Array.__sub__", f"{V}:Vec2Array.__mul__", f"{V}:Vec2Array.__truediv__"])
p("C31","longest and shortest",
  "For a non-empty array, arr.longest() and arr.shortest() are members of the array with maximum, respectively minimum, length (the first such); on an empty array both are None.",
  "all arrays of all lengths", "Induction on length; the all-null array is the corner.", [f"{V}:Vec2Array.longest", f"{V}:Vec2Array.shortest"])
p("C32","Operator order does not matter when a vector meets an array",
  "For a Vec2 v and a Vec2Array a of any length, v+a == a+v and v*a == a*v (element-wise).",
  "arrays of every length", "The operand order dispatches to different methods; the length of the array selects the branch.",
  [f"{V}:Vec2.__add__", f"{V}:Vec2.__mul__", f"{V}:Vec2Array.__radd__", f"{V}:Vec2Array.__rmul__"])
p("C33","Array clamp/normalize",
  "arr.clamp/arr.normalize leave in the array element-wise v.clamped/v.normalized of the old elements, agreeing with the non-mutating clamped()/normalized(); when they raise (min_length<0, or min_length>max_length on a non-empty array) the array is unchanged.",
  "all arrays and bounds", "Induction on length plus failure atomicity.", [f"{V}:Vec2Array.clamp", f"{V}:Vec2Array.clamped", f"{V}:Vec2Array.normalize"])
# ---------------- Lines
p("C34","direction and normal stay a right-handed unit pair",
  "After construction by any constructor and any history of assignments to direction, normal, offset, anchor, vector, end and in-place transforms, a Line/Ray/LineSegment has a unit direction and a unit normal with normal == -direction.perpendicular(); a failing assignment raises ValueError and leaves direction and normal unchanged.",
  "every history of mutations", "Invariant over histories.", [f"{L}:_LinearGeometry.direction", f"{L}:_LinearGeometry.normal", f"{L}:Line", f"{L}:Ray", f"{L}:LineSegment"])
p("C35","Line.distance_to is the signed distance and sides partition the plane",
  "|line.distance_to(p)| is the least distance from p to any point of the line, attained; for EPSILON>0 exactly one of point_left, point_right, contains_point holds for every p; reversing direction swaps left and right.",
  "all lines and points", "Minimum over infinitely many points of the line.", [f"{L}:Line.distance_to", f"{L}:Line.point_left", f"{L}:Line.point_right", f"{L}:Line.contains_point"])
p("C36","Line.project and Line.reflect",
  "line.project(p) lies on the line, is the closest point of the line to p and is idempotent; line.reflect is an involution preserving distances, negating distance_to, with fixed points exactly the line, and p, reflect(p) have project(p) as midpoint.",
  "all lines and points (EPSILON<1)", "Universal geometry law.", [f"{L}:Line.project", f"{L}:Line.reflect"])
p("C37","Line construction",
  "Line(point,d) passes through point with direction d/|d|; ValueError exactly when d is null within EPSILON. Line.from_points(ps) succeeds only if all points lie on the line within EPSILON, the result contains the first two distinct points exactly; line.from_points(line.points)==line; from_normal, parallel and perpendicular pass through the stated places.",
  "all points, directions, and point sequences of any length", "Induction over the iterable; round-trip over all lines.", [f"{L}:Line.__init__", f"{L}:Line.from_points", f"{L}:Line.from_normal", f"{L}:Line.points", f"{L}:Line.parallel", f"{L}:Line.perpendicular"])
p("C38","Ray queries",
  "ray.distance_to(p) is the least distance from p to any point of the ray, attained; point_behind, point_left, point_right are mutually exclusive, none of them holds of a point the ray contains, and a point of which none holds is less than sqrt(2)*EPSILON from the ray; ray.project(p) is a point within EPSILON of the ray, at distance at most distance_to(p) from p and exactly the closest point when p is not within the EPSILON band behind the anchor; ray.from_points(ray.points)==ray.",
  "all rays and points", "Minimum over infinitely many points.", [f"{L}:Ray.distance_to", f"{L}:Ray.project", f"{L}:Ray.point_behind", f"{L}:Ray.from_points"])
p("C39","LineSegment.distance_to is the distance to the segment",
  "segment.distance_to(p) is the least distance from p to any point between the end points, attained.",
  "all segments (however constructed) and points", "Minimum over infinitely many points; depends on how the segment was constructed.", [f"{L}:LineSegment.distance_to", f"{L}:LineSegment.from_normal"])
p("C40","LineSegment end points, vector and projection",
  "LineSegment(a,v) has start a, end a+v, length |v|, mid a+v/2; assigning end moves only the end; project(p) is within EPSILON of the segment and the closest point outside the EPSILON bands; a segment with a null vector is accepted while one with 0<|v|<=EPSILON raises ValueError; point_behind, point_ahead, point_left, point_right are mutually exclusive, none of them holds of a point the segment contains, and a point of which none holds is less than sqrt(2)*EPSILON from the segment.",
  "all anchors, vectors, points", "Universal law plus threshold cases.", [f"{L}:LineSegment.vector", f"{L}:LineSegment.end", f"{L}:LineSegment.mid", f"{L}:LineSegment.project"])
p("C41","LineSegment.from_points",
  "LineSegment.from_points(ps) starts at the first point, ends at a point of ps furthest from it, and succeeds exactly when every given point is within EPSILON of the segment (and the extent is zero or > EPSILON).",
  "all point sequences of any length", "Induction over the iterable.", [f"{L}:LineSegment.from_points"])
p("C42","Transforming lines, rays and segments",
  "T*shape contains T*p for every point p of the shape, and every point of T*shape is such an image (when it does not raise).",
  "all transforms and linear shapes", "Set equality over all points of the shape.", [f"{L}:Line.__imul__", f"{L}:Ray.__imul__", f"{L}:LineSegment.__imul__", f"{T}:Affine.__mul__"])
# ---------------- Polygon
p("C43","A polygon has at least three vertices",
  "Every Polygon object has at least 3 vertices: constructors raise ValueError otherwise, and no operation changes the number of vertices.",
  "all constructor arguments and histories", "Invariant over all construction paths.", [f"{G}:Polygon.__init__", f"{G}:Polygon.from_points", f"{G}:Polygon.star", f"{G}:Polygon.regular"])
p("C44","Cached polygon classification never goes stale",
  "For a polygon built without declared flags, after any history of vertex assignments, in-place transforms and property reads, is_convex, is_simple, centroid and bounding_box return what a fresh polygon with the current vertices would return, and reading twice gives the same answer.",
  "every history of mutations and reads", "Quantifies over histories; staleness shows only in particular orders.", [f"{G}:Polygon._clear_cached_properties", f"{G}:Polygon.__setitem__", f"{G}:Polygon.__imul__", f"{G}:Polygon.is_convex", f"{G}:Polygon.is_simple", f"{G}:Polygon.centroid", f"{G}:Polygon.bounding_box"])
p("C45","is_convex is correct",
  "is_convex is True iff the polygon is convex: all vertices lie on one side of every edge and the boundary is traversed once.",
  "all vertex sequences of any length", "Local turn test versus a global property; induction over the boundary.", [f"{G}:Polygon._classify", f"{G}:Polygon.is_convex"])
p("C46","is_simple is correct",
  "For a polygon not already known convex, is_simple is False iff two non-adjacent edges share a point.",
  "all vertex sequences of any length, all coincidences", "Sweep-order coincidences (shared end points, collinear overlaps) are measure-zero for random tests.", [f"{G}:Polygon._check_is_simple", f"{G}:Polygon._segments_intersect"])
p("C47","centroid is the area centroid",
  "For a simple polygon of non-zero area centroid is the area-weighted centroid (1/6A)*sum (vi+vj)*cross(vi,vj), independent of the starting vertex and winding, moves with translations and linear maps, is the mean of the vertices for triangles; it is None for non-simple polygons and raises ZeroDivisionError for zero area.",
  "all polygons of any size", "Sum over arbitrarily many vertices.", [f"{G}:Polygon.centroid"])
p("C48","contains_point on a general polygon counts windings",
  "For a polygon with nothing cached and at least 4 vertices, contains_point(p) is True iff the signed number of boundary crossings of the leftward horizontal ray from p is non-zero; the bounding-box shortcut never changes the answer; the answer is independent of the starting vertex and of winding direction and is translation invariant.",
  "all polygons of any size, all points", "Induction over edges; boundary points.", [f"{G}:Polygon._pnp_winding_test", f"{G}:Polygon.contains_point"])
p("C49","contains_point is False outside the convex hull",
  "If contains_point answers True through the winding or bounding-box path then the point is a convex combination of the vertices; in particular it is inside every disk and half-plane that contains all the vertices. For polygons whose is_convex is right (see C45) this holds after any history of reads, vertex assignments and in-place transforms.",
  "all polygons, all points", "Separation argument over all half-planes.", [f"{G}:Polygon._pnp_winding_test"])
p("C50","Triangle containment agrees with the general test",
  "For a triangle whose edges at the middle vertex are not null within EPSILON, contains_point gives the same answer as the general winding rule for every Vec2 point, including every boundary point; both accept any point argument that the other accepts.",
  "all triangles and points", "Boundary points in every orientation.", [f"{G}:Polygon._pnp_triangle_test"])
p("C51","Convex containment agrees with the general test",
  "For a convex polygon contains_point gives the same answer whether or not is_convex has been read before.",
  "all convex polygons and points", "Depends on which vertices are extreme and on the order of vertices.", [f"{G}:Polygon._pnp_y_monotone_test", f"{G}:Polygon._split_y_polylines"])
p("C52","contains_point never depends on earlier reads and never raises",
  "For a polygon built without declared flags, contains_point(p) for a Vec2 p returns (does not raise) and returns the same answer after any history of property reads.",
  "every history of reads", "Quantifies over histories of reads.", [f"{G}:Polygon.contains_point", f"{G}:Polygon.centroid", f"{G}:Polygon.is_convex"])
p("C53","Radial shortcuts of regular and star polygons are sound",
  "For Polygon.regular and Polygon.star the centre-distance shortcut gives the answer of the general winding rule: points nearer than the inner radius are inside, points farther than the outer radius are outside.",
  "all vertex counts, radii, centres, start angles, points", "Trigonometric inequality for all n.", [f"{G}:Polygon.regular", f"{G}:Polygon.star", f"{G}:Polygon.contains_point"])
p("C54","Shapes sharing edges never both claim a point",
  "If two polygons both contain p (general winding rule) then there is a point arbitrarily close to p, on neither boundary, that both contain: polygons with disjoint interiors never both contain a point. Cutting a polygon along a chord splits the winding number additively, so for windings 0/1 exactly one part contains each contained point.",
  "all polygons, all points, including all shared-edge points", "Coincident-boundary positions in every orientation.", [f"{G}:Polygon._pnp_winding_test"])
p("C55","Polygon equality",
  "== on polygons is reflexive, symmetric and transitive, != is its negation; polygons equal up to starting vertex and winding direction are ==; conversely == polygons have the same boundary up to starting vertex and winding.",
  "all polygons, all rotations and reversals", "Equivalence and cyclic-sequence identity over all lengths.", [f"{G}:Polygon.__eq__", f"{G}:Polygon.__ne__"])
p("C56","Copies are equal and independent",
  "copy(p) and deepcopy(p) are == p, answer is_convex, is_simple, centroid, bounding_box as p would, and later mutations of either do not affect the other.",
  "all polygon states and later histories", "Aliasing over histories.", [f"{G}:Polygon.__copy__", f"{G}:Polygon.__deepcopy__"])
p("C57","convex_hull",
  "Polygon.convex_hull(points): every hull vertex is one of the points and every point lies inside or on the hull. Points on one line give a degenerate triangle with the same property; no points raise IndexError, fewer than three distinct points ValueError. No vertex is listed twice (unless all points have the same x), and the hull of a hull is a copy of it.",
  "all point sequences", "All configurations; the adaptive sort branch is only reached for special distributions.", [f"{G}:Polygon.convex_hull", f"{G}:_adaptive_quick_hull", f"{G}:_ahull_partition_points", f"{G}:_ahull_sort_points"])
p("C58","tangents_to_point returns tangent vertices",
  "For a convex polygon and an exterior point p, tangents_to_point(p) returns two vertices of the polygon such that all vertices are on one side of the line from p through each; for every polygon and point the results are vertices of the polygon and no exception is raised.",
  "all polygons and points", "Induction over boundary; binary-search index safety.", [f"{G}:Polygon._pt_tangents", f"{G}:Polygon._left_tan_i_convex", f"{G}:Polygon._right_tan_i_convex", f"{G}:Polygon.tangents_to_point"])
p("C59","regular and star vertices",
  "Polygon.regular(n,r,c,a) has exactly n vertices, all at distance |r| from c, vertex k at angle a+360k/n, with centroid c; star(k,r1,r2) has 2k vertices alternating distances |r1|,|r2|; fewer than 3 vertices / 2 peaks raise ValueError.",
  "all counts, radii, centres, angles", "Induction over the construction loop.", [f"{G}:Polygon.regular", f"{G}:Polygon.star"])
p("C60","repr arguments rebuild an equal object",
  "The constructor call printed by repr of a Vec2, Affine, BoundingBox, Line, Ray, LineSegment or Polygon, evaluated with exact numbers, builds an object == to the original.",
  "all objects reachable by the API", "Round-trip over all states; number formatting itself is Python runtime.", [f"{V}:Vec2.__repr__", f"{T}:Affine.__repr__", f"{B}:BoundingBox.__repr__", f"{L}:Line.__repr__", f"{G}:Polygon.__repr__"])
def load_extra():
    extra = os.path.join(os.path.dirname(__file__), "extra_properties.py")
    if os.path.exists(extra):
        exec(open(extra).read(), dict(p=p, V=V, T=T, B=B, L=L, G=G, U=U, I=I))
load_extra()
out = os.path.join(os.path.dirname(__file__), "..", "properties.jsonl")
with open(out, "w") as f:
    for x in P: f.write(json.dumps(x, ensure_ascii=False) + "\n")
print(len(P))
