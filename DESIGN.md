# Formal model of chalk-diagrams/planar (Lean 4)

The model reads `/repo/planar/*.py` function by function. Layout (all under `lean/Verif/`):

| module | contents |
|---|---|
| `Model/Num` | exceptions as values, division with `ZeroDivisionError`, Python indexing and slices, the `PyMath` interface (sqrt, trigonometry) |
| `Model/Real` | the instance of `PyMath` at the real numbers |
| `Model/Vec2`, `Affine`, `Box`, `BoxPoly`, `Line`, `Seq`, `Polygon`, `Tangents`, `Hull` | one definition per Python function or method, each citing file and lines |
| `Model/Cache` | `util.cached_property` and the module-level EPSILON as a state machine |
| `Model/Dispatch` | Python's binary-operator dispatch between vectors, arrays and other objects |
| `Model/History` | histories of reads, queries and edits of a polygon (`PolyOp`, `after`) |
| `Model/Epsilon` | histories in which `set_epsilon` is called in between |
| `Model/Cost` | the same loops with a count of their steps, for the documented running times (C86-C88) |
| `Model/Repr` | the constructor calls printed by `repr` |
| `Model/Operators` | Python's dispatch of `+ - * / //` and their in-place forms over all operand classes |
| `Model/PyEq` | `==`, `!=`, `hash` and dict lookup between objects of all classes |
| `Model/SeqHeap` | a heap of list and sequence objects, statements on them, the loop of `extend` |
| `Model/Iter` | list iterators, `len` and `bool` on that heap |
| `Spec/*` | small specifications independent of the model: lists, shapes as point sets, closed paths (edges, winding number, hull), convexity, self-touching, area, circles |
| `Lemmas/*` | helper lemmas |
| `Props/*` | the property theorems (names `Cnn_...`), each followed by an `example` meeting its hypotheses |

## Trusted base

* Lean 4.33's kernel (every module is replayed by it) and the three standard axioms `propext`, `Classical.choice`,
  `Quot.sound`; no theorem depends on any other axiom. Mathlib is used as a library of checked proofs.
* The correspondence between the Python text and `Model/*`, which is by reading: each definition carries the file and
  lines it models and says where it simplifies.
* The specifications in `Spec/*` and the statements in `Props/*`.

## Numbers

Every model function is polymorphic in the number type `K` and uses only the operations
(`+ - * / < <= ==`, plus `PyMath` for sqrt and trigonometry) that the Python code uses. It is reasoned about at

* any linearly ordered field (`[Field K] [LinearOrder K] [IsStrictOrderedRing K]`): exact arithmetic;
* `Real` where `length`, `sqrt` or trigonometry is involved;
* any type with `RoundedArith` (Spec/Rounded.lean): the laws of arithmetic that survive rounding. Exact arithmetic and
  every monotone, odd, idempotent rounding satisfy them; IEEE rounding to nearest even with any number of digits is
  proved to be one. The theorems about caches, flags, equality, copies, boxes and sequences (C19 for arrays and polygons,
  C20-C23, C27_polygon, C29-C32, C43, C44, C55, C56, C60, C62-C64, C68, C69, C85) are stated at this level and so hold for
  rounded numbers;
* no law of arithmetic at all for the bounds on exceptions of C74 and the running times of C86-C88 (but for
  C86_contains_convex, C87_fast and C87_violated). The running times count passages of loops; that arithmetic, indexing,
  appending, and set and dict operations take constant time and that `sorted` takes `m (log2 m + 1)` is trusted;
* `Double` (IEEE binary64: rationals with 53 binary digits, round to nearest even, gradual underflow, overflow to
  infinity; Spec/Double) for C70, C75, C77, C78, C79, C80, C81, C82, C83, C84 and the floating point
  counterexamples. What `x ** 0.5` and the functions of `math` return for doubles are parameters; C78, C80 and C81 assume
  them within one unit in the last place (`SqrtOk`, Spec/DoubleSqrt; `HypotOk`, Spec/DoubleVec; `TrigOk`,
  Spec/DoubleTrig: also `%` exact up to rounding; nothing about `atan2` on the negative x-axis, where Python looks at the
  sign of a zero that the model does not have). `x ** 2` (`Spec.SqOk`) is within one unit in the last place and raises OverflowError where the square is too large. `sqrtOk_exists`, `hypotOk_exists`, `sqOk_exists` and `trigOk_exists` prove that such functions exist. EPSILON2 is taken to be EPSILON * EPSILON wherever it is read (C93 treats the variable itself).

EPSILON is an argument (`eps`) of every function that reads it; theorems quantify over it.

## What is modelled

Every function and method of `vector.py`, `transform.py`, `box.py`, `line.py`, `polygon.py`, and of `util.py` and
`__init__.py` what they need, except those listed below. Mutable objects are state-passing functions that return the
answer and the object after the call, also when an exception is raised, so that "raises and leaves the object
unchanged" is a statement about the model.

Exceptions: `Except PyErr`. Division by zero is an explicit `ZeroDivisionError` branch, bad indices `IndexError`,
`ValueError`/`TypeError`/`TransformNotInvertibleError` as raised by the code.

Iteration order of Python sets (`convex_hull`) is a parameter; the theorems hold for every order.

## What is not modelled

* signed zeros and, in `Double`, NaN (the invalid operations inf - inf, 0 * inf, inf / inf have other results; the theorems about `Double` that fix the size of the coordinates bound it so that nothing overflows; one NaN-like value is in Spec/NanRat, used by C74); CPython's `float()` and number formatting.
* `Vec2.__str__`, the trivial accessors `x`, `y`, `__pos__`,
  `util.assert_unorderable` (raises always), the lambda that defines `set_epsilon` (its effect is in
  `Model/Cache`).
* the type stubs `*.pyi` and the re-exporting modules `py.py`, `__init__.py` beyond EPSILON.
* the ValueError that `math.tan(inf)` raises in `Affine.shear`, and the OverflowError of integers too large for a float.
* object identity other than where it is observable; time.
* threads, but for reads of one polygon or transform (C96), interrupted assignments (C97, nothing else runs) and
  assignments to one polygon or array (C98; reads beside assignments go through the vertices in one step there too): there an access to one attribute or list is one step (CPython
  switches threads and delivers exceptions such as KeyboardInterrupt between bytecode instructions; each attribute access
  is a separate one), the vertices, read in one step, and EPSILON do not change meanwhile, and `None` as the answer of
  `is_simple` (another thread may have reset the attribute) is shown as False.

## Violated properties

Some documented properties are false of the unchanged code. Then the property keeps its statement and status `partial`,
with (1) a theorem `..._violated` exhibiting the violation on a concrete input of the model or for a whole class and
(2) `_partial` theorems, wherever possible with the exact condition under which it holds. The note in `MANIFEST.json`
says for each what is missing. Summary of the findings:

C09 `angle_to` range; C14/C15 transforms apply transposed; C18 `is_conformal` for non-uniform scales; C26 `fit` scales
about the origin; C29/C43 slice assignment splices numbers into a sequence; C31 `longest` of null vectors; C32 a vector
and an array of two; C39 segments of negative length; C43 `from_points` with fewer than three points; C45 repeated last
vertex; C46 touches not found; C50 tuples and tiny triangles; C51 convex containment picks the wrong chain (every
rectangle listed anticlockwise from its lower-left corner contains nothing); C52 `TypeError` after `centroid` of a
non-simple polygon; C53 blunt stars, `regular(4)` with its first vertex exactly lower left of the centre; C55 repeated edges; C57 the sorted scan of `convex_hull` loses points; C58 binary
search for tangents; C59 `regular(0, ...)`, flags of stars; C60 short segments; C69 and C70 rounding (points left of a
quadrilateral; points on an edge of a triangle); C71 arrays of two unpack like vectors; C72 `a.extend(a)` never ends; C73
a vector compared with a dict raises KeyError, equals a `range` or `bytes` object with another hash; C74 `convex_hull` of four points raises UnboundLocalError in double
arithmetic; C86 deep copies of polygons declared convex; C87 polygons declared convex never use the fast tangent search; C90 and C91 what lost
points do to `convex_hull` (order of the points, bounding box, mirror images, hull of a hull); C93 `set_epsilon(1e200)` changes EPSILON but not
EPSILON2; C95 rays and lines beyond `2 ^ 56` cannot be transformed, not even by the identity; C96 `is_convex` stores True
before it knows, and the polylines before they are reversed: a second thread, or an interruption, sees or keeps wrong values; C97 an
interrupted `poly[i] = v` leaves caches of the old vertices, an interrupted `*=` cannot be repeated, an interrupted
`direction` setter leaves a frame that is not one; C98 assignments by threads: a stale bounding box for good, TypeError from
`contains_point`, KeyError from assignments to a triangle, lost updates, a broken frame.

## Testing the theorems

`seeded/LOG.jsonl` records edits of the model that imitate bugs. Each was applied to a scratch copy and the property
modules of the claims it should break were rebuilt; failing proofs were replaced one after another so that every theorem
that no longer holds (or can no longer be proved as written) is listed, not just the first. Where an edit went unnoticed
the theorem was tightened or one was added.

## Plan per property

| id | title | model / proof | modules | status |
|---|---|---|---|---|
| C01 | Vec2 arithmetic is a vector space | Vec2 ops over a field; ring identities; error branch by cases. | Vec, VecMore | proved |
| C02 | dot, cross and perpendicular | ring identities. | Vec, VecMore | proved |
| C03 | normalized gives a unit vector or null | Real.sqrt; unit length by field_simp. | Vec, VecMore | proved |
| C04 | scaled_to and clamped bound the length | case analysis on lengths via sqrt monotonicity. | Vec | proved |
| C05 | project is the orthogonal projection | completing the square. | Vec | proved |
| C06 | reflect is a length-preserving involution | field identities under the guard. | Vec | proved |
| C07 | Comparison operators are consistent | order on length2; eq/ne over lists of any length. | Vec, Links | proved |
| C08 | Rotation and polar construction | Real.cos/sin; cos_sin_deg proved equal to cos/sin of the angle for every angle. | Trig | proved |
| C09 | angle and angle_to | Complex.arg for atan2; the angle_to range claim is false: counterexample, plus congruence mod 360 as partial and the exact set of pairs that leave the range. | Trig, Flags | partial |
| C10 | lerp interpolates | ring. | Vec | proved |
| C11 | almost_equals is a tolerance relation | abs/squares. | AlmostEq, LineTransform, Vec | proved |
| C12 | Affine multiplication is a monoid | ring on 6 coefficients. | Affine | proved |
| C13 | ~T inverts a transform | field_simp under | Affine | proved |
| C14 | Composed transforms apply in sequence | false (vectors are multiplied by the transposed linear part): counterexample + exact iff, for both orders. | Affine, AffineMore | partial |
| C15 | Inverse transform undoes the transform on points | same as C14. | Affine | partial |
| C16 | Affine application preserves affine structure and scales area by the determinant | ring, list induction for shoelace. | Affine, VecMore | proved |
| C17 | Elementary transforms | trig identities. | Affine | proved |
| C18 | Transform classification flags | exact-limit statements, both directions; is_conformal false: counterexample and the exact missing condition. | Affine, VecMore, Flags | partial |
| C19 | In-place transform equals out-of-place transform | loop invariant over index; list induction. | Affine, LineTransform, PolyState | proved |
| C20 | Cached transform properties are stable | state machine of one object dict + global epsilon; induction over event lists. | Cache | proved |
| C21 | BoundingBox is the smallest box enclosing its points | fold invariant; order-only (any linear order). | Box, BoxMore | proved |
| C22 | from_shapes encloses every shape | fold invariant. | Box | proved |
| C23 | Box containment never double counts and leaves no gaps | order reasoning. | Box, BoxMore | proved |
| C24 | from_center and inflate keep the centre | field reasoning. | Box | proved |
| C25 | fit of a box | field reasoning, min of two ratios. | Box | proved |
| C26 | fit of any other shape | false (scaled about the origin): counterexample + exact description. | Box, BoxMore | partial |
| C27 | Transforming a box | case analysis on the two rectilinear shapes. | Box, PolyState, BoxTransform | proved |
| C28 | to_polygon has the containment of the box | unfold the y-monotone test on the 4 corners. | BoxPolygon | proved |
| C29 | Vec2Array behaves as a list of Vec2 | state machine vs. list spec. | Seq | partial |
| C30 | Array arithmetic is element-wise | list induction. | Seq, SeqMore, Links | proved |
| C31 | longest and shortest | fold invariant; false for all-null arrays: counterexample + partial. | Seq | partial |
| C32 | Operator order does not matter when a vector meets an array | dynamic dispatch model; false for length 2: counterexample + partial. | Seq, Links | partial |
| C33 | Array clamp/normalize | mapM lemmas. | Seq | proved |
| C34 | direction and normal stay a right-handed unit pair | invariant over op histories. | Line, LineMore, Ray, Segment | proved |
| C35 | Line.distance_to is the signed distance and sides partition the plane | inner-product geometry over Real. | Line | proved |
| C36 | Line.project and Line.reflect | same. | Line | proved |
| C37 | Line construction | loop induction. | Line, LineMore | proved |
| C38 | Ray queries | case split at the anchor. | Ray, Sides | proved |
| C39 | LineSegment.distance_to is the distance to the segment | false for from_normal with end<start: counterexample; partial for length>=0. | Segment | partial |
| C40 | LineSegment end points, vector and projection | field/real reasoning. | LineMore, Segment, Sides | proved |
| C41 | LineSegment.from_points | fold invariant. | Segment | proved |
| C42 | Transforming lines, rays and segments | image sets; affine map of direction. | LineTransform | proved |
| C43 | A polygon has at least three vertices | from_points bypasses the check: counterexample; partial for the other constructors. | PolyState | partial |
| C44 | Cached polygon classification never goes stale | invariant over histories, arithmetic-free. | PolyState | proved |
| C45 | is_convex is correct | edge-vector argument: partial sums of crosses change sign once; counterexample for duplicated last vertex. | Convex | partial |
| C46 | is_simple is correct | simulation of the sweep; soundness, completeness up to end-point touches and collinear overlap. | Simple, SimpleConvex | partial |
| C47 | centroid is the area centroid | fan = shoelace by induction. | Centroid | proved |
| C48 | contains_point on a general polygon counts windings | list sums over edges; bounding box lemma. | AllPolys, Winding | proved |
| C49 | contains_point is False outside the convex hull | crossing points on both sides; for every history by the state invariant. | AllPolys, AnyHistory, Winding | proved |
| C50 | Triangle containment agrees with the general test | barycentric case analysis. | Triangle | partial |
| C51 | Convex containment agrees with the general test | false (wrong left/right choice): counterexample, exact criterion (`Swapped`, Spec/Swapped) by exchanging the two chains. | ConvexContains, Rectangle, ConvexExact | partial |
| C52 | contains_point never depends on earlier reads and never raises | false (TypeError after centroid of a non-simple polygon): counterexample; exact condition for quadrilaterals and simple polygons; exactly which read histories make it raise; after assignments and in-place transforms. | AnyHistory, ConvexContains, ConvexExact | partial |
| C53 | Radial shortcuts of regular and star polygons are sound | trig; false for blunt stars and for squares at 225 degrees: counterexamples; everything else proved. | RadialContains, RadialExact, Square, StarShape | partial |
| C54 | Shapes sharing edges never both claim a point | perturbation argument edge by edge. | AllPolys, Winding | proved |
| C55 | Polygon equality | multisets of trigrams; false converse with repeated edges: counterexample; partial for distinct vertices. | PolyEq | partial |
| C56 | Copies are equal and independent | state equality; a deep copy answers containment by the winding rule. | AnyHistory, PolyState | proved |
| C57 | convex_hull | partition lemmas, stack-scan invariant, set iteration order a parameter; false in general (sorted branch): counterexample, sufficient side condition for the partial (hereditary under partition, so a condition on the points alone: Spec/HullCaps); convexity and orientation without any condition, and exactly when no point is lost: induction over the partition with chains that stay behind their chords (Lemmas/HullConvex); points on a line, exactly. | Hull, HullCaps, HullLine, HullDistinct, HullExact | partial |
| C58 | tangents_to_point returns tangent vertices | linear scan: loop invariant with a separating functional; binary search: monotone side function, false on edge lines: counterexample. | RadialTangents, Tangents | partial |
| C59 | regular and star vertices | loop induction + trig. | Radial, RadialShape, StarShape | partial |
| C60 | repr arguments rebuild an equal object | constructor round trip with exact numbers; induction over all reachable polygons; formatting of floats is not modelled. | Repr, ReprAll | partial |
| C61 | contains_point is constant on regions | crossing numbers are locally constant off the boundary; sup-free argument by finitely many edges along the segment. | AllPolys, Region | proved |
| C62 | boxes are never inverted | predicate closed under every box-returning function. | Repr | proved |
| C63 | declared flags are trusted until the polygon changes, and correct ones change nothing | invariant over histories with arbitrary declared flags. | PolyFlags, Declared | proved |
| C64 | the ..._known properties | invariant over histories. | PolyFlags | proved |
| C65 | contains_point commutes with invertible transforms | winding number along any direction, quadrant formula, affine change of direction. | Equivariance, WindAffine | proved |
| C66 | is_convex / is_simple unchanged by invertible transforms | OnceAround along any direction order; the exact characterisation of the sweep. | Equivariance, ConvexAffine | proved |
| C67 | == polygons are interchangeable | the trigrams determine edges and vertices; convexity and crossings by positions modulo n. | EqAnswers | proved |
| C68 | what is exact in floating point | the laws that survive rounding (class RoundedArith), proved for IEEE rounding. | Floats, Spec/Rounded | proved |
| C69 | floating point containment inside the bounding box | monotone rounding: right of all vertices every crossing is counted, and the count telescopes. | FloatContains | partial |
| C70 | on a grid floating point answers are exact | simulation of the exact run by the rounded run; products of differences are representable; relative error bound for the triangle test. | FloatGrid, FloatHull, Grid*, GridTri | partial |
| C71 | operators between all classes | Model/Operators is the Python dispatch (left method, reflected method, TypeError) over all operand classes; table of expected classes in Spec/Operators; case analysis plus induction on the comprehension. | Operators | partial |
| C72 | sequence objects do not share state | Model/SeqHeap is a heap of list objects and of sequence objects referring to them, with methods that write, rebind or allocate; `extend` is the iterator loop as an inductive relation. Invariant: no two objects refer to one list. Refinement to the heap-free machine in Spec/SeqHeap. | SeqHeap | partial |
| C73 | == and hash between all classes | Model/PyEq: the dispatch table of == over a nested inductive type of objects, hash and dict lookup; mutual structural induction; normal form of hashable objects. | PyEq | partial |
| C74 | no internal errors whatever the arithmetic | invariant of all reachable objects (the stored polylines are those of the vertices) and of the bisection, with law-free arithmetic and comparisons that are total only on the values that are not NaN; evaluation in double arithmetic for the violations. | NoRaise, NoRaiseFloat, Spec/Reachable, Spec/NanRat | partial |
| C75 | rectilinear polygons are exact in floating point | simulation of the floating point object by the exact one: along a horizontal or vertical edge one of the two products of every orientation test is zero, so its sign survives rounding (when edges are not shorter than 1, or nothing underflows); neighbours in the stored polylines are edges. | RectFloats, Lemmas/Rectilinear, Lemmas/RectSim, Spec/Rectilinear, Spec/Double | proved |
| C76 | derived values move with the polygon | box: extremes of an affine function of one coordinate; tangents: every comparison of the scan and of the binary search is the sign of an orientation, which is scaled by the determinant, and the choice of algorithm is invariant (C66); mirror: both results are extreme; centroid: C47, C66 | `Props/Images.lean` | proved |
| C77 | away from the edges floating point answers are exact | error analysis of double rounding (relative error 2^-53, absolute 2^-1075, differences of doubles have no absolute error) gives the sign of every orientation test beyond a stated margin; then simulation of the double object by the exact one, edge by edge (only edges that span the height of the point matter, also in the bisected polylines); tangent queries, linear or by binary search, take the same branches when the point sees all edges and pairs of vertices clearly; for triangles the errors of the barycentric coordinates are followed through dot products, the reciprocal and the sum | `Props/FloatClear.lean`, `Props/FloatTriangle.lean`, Lemmas/FloatError, Lemmas/ClearSim, Lemmas/ClearDouble, Lemmas/TriDouble, Spec/Clear | proved |
| C78 | unit vectors, lines, rays and segments in double precision | error analysis through the standard model of rounding (relative 2^-53, absolute 2^-1075; differences exact to relative error) of squares, sums, square root and quotients; then of the dot products and of the case distinctions of `distance_to`, whose branches agree up to the error where they meet; `SqrtOk` (square root within one ulp, infinite for infinity) is a hypothesis, shown satisfiable by `sqrtOk_exists` | `Props/FloatLines.lean`, `Props/FloatPoints.lean`, Props/FloatParallel, Props/FloatParts, Props/FloatFromNormal, Props/FloatLinePoints, Props/FloatSides, Props/FloatSetEnd, Spec/Along, Spec/DoubleSqrt, Lemmas/StdModel, FloatUnit, FloatFrame, FloatDist, ExactDist, FloatClose | proved |
| C79 | transforms in double precision | the standard model of rounding through sums of two and three products, the reciprocal of the determinant and the products with it; comparisons of rounded differences with EPSILON by monotonicity of rounding (EPSILON is a double); for the round trip, the errors of the image and of the inverse's entries through the second product, and the same for two transforms and for a product of transforms | `Props/FloatAffine.lean`, Props/FloatInverse, Props/FloatCompose, Props/FloatIdentity, Spec/DoubleCompose, Lemmas/FloatAffine, Spec/DoubleAffine, Spec/DoubleInverse | proved |
| C80 | vectors in double precision | the standard model of rounding through products, sums, the square root (`SqrtOk`) or `math.hypot` (`HypotOk`) and quotients; squares compared like the numbers beyond the rounding error; underflow tracked as an absolute term | `Props/FloatVec.lean`, Lemmas/FloatVec, Spec/DoubleVec | proved |
| C81 | angles, rotations, regular polygons and stars in double precision | `%` brings any finite angle to [0, 360] with a tiny absolute error and `cosSinDeg` is within 35 half-units of the exact cosine and sine (`TrigOk`); induction over the vertices for the accumulated angle; the error of the distance from the centre does not accumulate, as cosine and sine of the same rounded angle are used | `Props/FloatTrig.lean`, Lemmas/FloatTrig, Spec/DoubleTrig | proved |
| C82 | polygons with rounded vertices contain the right points | moving the ends of an edge by less than the distance of the point changes no crossing count in total (a homotopy of quadrilaterals); for the two chains: crossings of the stored edges are near the exact edges, so the exact winding number and the order of the crossings along the height of the point decide, with the directions of the edges of a convex chain at heights between its ends; the ends of the chains and the choice of the left one from `Broad`; regular polygons: the errors of C81, `Broad` from the angles, heights of neighbouring vertices from steps of doubles (Lemmas/FloatMult), the stored radii from their errors; stars in the same way, with the winding test only | `Props/FloatShapes.lean`, `Props/FloatRegular.lean`, `Props/FloatStar.lean`, Lemmas/WindNear, YNear, YNearReal, CastPoly, Kept, RadialNear, FloatMult, Spec/NearPoly | proved |
| C83 | bounding boxes in double precision | monotony of rounding for what encloses what (any rounding); the error of each operation (Lemmas/FloatUnit) carried through the halves, the quotients, the minimum of the two ratios and the products; the middle is in the box because twice a double is a double | Props/FloatBox | proved |
| C84 | the centroid in double precision | error of one triangle's area and moment, then induction over the loop with an error that grows linearly (Lemmas/FloatCentroid); the quotient of the two perturbed sums; fanArea (Spec/DoubleCentroid) is the area for one-sided polygons | Props/FloatCentroid | proved |
| C85 | what set_epsilon changes in objects made before it | monotonicity of each comparison at the level of `RoundedArith`; a direction accepted under the larger EPSILON takes the same branches under the smaller; histories with `set_epsilon` (Model/Epsilon) keep the invariant of C44 under one of the values EPSILON has had | Props/Epsilon | proved |
| C86 | documented running times of contains_point, is_convex, is_simple, centroid and bounding_box | counted twins of the functions (Model/Cost), proved to compute the same; induction over the loops, halving for bisect; invariants of reachable objects for the length of the polylines | Model/Cost, Lemmas/Cost, Props/RunningTime | partial (violated for deep copies and flat polygons) |
| C87 | documented running time of tangents_to_point | the searches halve the interval and keep an extreme vertex inside (as in C58); the slow points: seen from the line of the closing edge no vertex passes the test of the right search | Lemmas/CostTangents, Props/TangentTime | partial (violated, C87_declared and C87_violated) |
| C88 | documented worst case of convex_hull | strong induction on the number of points: a partition leads to two partitions of together at most all points, each at most 4/5 of them, or to a sort | Lemmas/CostHull, Props/HullTime | proved |
| C89 | a convex hull is what its flags say and answers contains_point correctly | C57_convex with C46_convex (a convex polygon without repeated vertices is simple) and C63_contains_correct; the list begins at the leftmost vertex and turns clockwise, so it is never `Swapped` | Props/HullObject | proved |
| C90 | convex_hull depends only on the set of points | the edges are exactly the pairs of points with all points on their right (faces of InHull), so two hulls have the same edges; a closed path without repeated vertices is determined by its edges up to rotation; counterexample with points on a line | Props/HullOrder, HullViolated, FloatHull | partial |
| C91 | convex hulls with transforms, bounding boxes and hulls of hulls | sides are multiplied by the determinant, so the edge criterion of C90 goes over to the images (reversed edges for mirrors); half planes for the box | Props/HullMaps, HullViolated | partial |
| C92 | exceptions of vectors, transforms, boxes, lines, rays and segments | case analysis on every guard, with no law of arithmetic; Spec/Tolerance says what is assumed of EPSILON | Props/Raises | proved |
| C93 | EPSILON2 is the square of EPSILON | induction over the calls; violated by numbers whose square overflows | Props/EpsGlobals | partial |
| C94 | project and reflect of lines, rays and segments in double precision | error propagation through direction, dot and project; real nearest points characterised by their parameter along the direction | Spec/Nearest, Lemmas/FloatProject, Props/FloatProject | proved |
| C95 | transforming lines, rays and segments in double precision | error propagation through points, apply and the new direction; violated far from the origin, where the unit step is absorbed by rounding | Spec/MapLines, Lemmas/FloatAbsorb, Lemmas/FloatMap, Props/FloatTransformLines | partial |
| C96 | reads by several threads, and interrupted reads | each operation as a tree of atomic accesses, proved to be the operation when run alone; rely-guarantee invariants for every schedule; wait-freedom by a bound on the depth of the trees; violated by four concrete schedules | Model/Threads, Lemmas/Threads, Lemmas/ThreadsRely, Lemmas/ThreadsMore, Props/Threads | partial |
| C97 | assignments that are interrupted | the assigning operations as trees of atomic accesses, proved to be the operations when run to the end; invariants over all stopping points, induction over the loop of `itransform`; an inductive predicate for any number of interrupted operations; violated by three concrete interruptions | Model/Mutate, Spec/Between, Spec/Interrupted, Lemmas/Mutate, Lemmas/TriLong, Props/Interrupted | partial |
| C98 | assignments by several threads | the assignments as trees of accesses with the test and deletion of the cached closure as separate steps; rely-guarantee: other threads only empty caches and store new values, assertions stable under that, induction over the loop; the thread that deletes the closure is followed from there to its end; interleavings of `extend` by an invariant of the system; array operations that use the list once are linearized by induction on the schedule; violated by concrete schedules | Model/Writers, Spec/Writers, Lemmas/Writers, Lemmas/WritersSettle, Lemmas/WritersMix, Props/Writers | partial |
| C99 | iteration over sequences that change | iterators as references to list objects with a position, added to the heap of C72; refinement by a machine without a heap whose cursors follow objects by number and are left behind when all items are replaced; every statement either writes into a list or rebinds the attribute (case analysis over the statements); induction over the program | Model/Iter, Spec/Iter, Props/Iter | proved |
