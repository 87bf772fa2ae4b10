import Verif.Model.Box
import Verif.Model.Seq
/- Model of class Polygon, /repo/planar/polygon.py:36-817 (without the convex hull, see Hull.lean,
and the tangents, see Tangents.lean).

An object is the structure `Polygon`: its list of vertices and every cached attribute. Reading a
property may write caches, so readers return the value (or exception) and the object afterwards. -/
namespace Planar

variable {K : Type}

/-- A point argument: planar accepts any 2-sequence of numbers; some code paths only work with
`Vec2` objects. -/
inductive PyPoint (K : Type) where
  | vec (v : Vec2 K)
  | tup (x y : K)
  deriving Repr

/-- Unpacking `px, py = point` works for both kinds. -/
def PyPoint.toVec : PyPoint K → Vec2 K
  | .vec v => v
  | .tup x y => ⟨x, y⟩

/-- `point - v`: a plain tuple has no `__sub__` and Vec2 no `__rsub__`: TypeError. -/
def PyPoint.sub [Sub K] : PyPoint K → Vec2 K → Py (Vec2 K)
  | .vec p, v => .ok (p - v)
  | .tup _ _, _ => .error .typeError

/-- polygon.py:619-651: the variables captured by the cached triangle test closure;
`leading` tells which of the two closures was stored. -/
structure TriClosure (K : Type) where
  mid : Vec2 K
  v0 : Vec2 K
  v1 : Vec2 K
  dot01 : K
  dot00 : K
  dot11 : K
  invDenom : K
  leading : Bool
  deriving Repr

/-- polygon.py:36-87, 180-196: the attributes of a Polygon. `none` in `convex`, `simple`,
`dupeVerts`, `degenerate` and the outer level of `centroid` is the `_unknown` marker, `none` in the
others (and in the inner level of `centroid`) is Python's None. `triTest` is the closure stored in the instance dict. -/
structure Polygon (K : Type) where
  verts : List (Vec2 K)
  convex : Option Bool
  simple : Option Bool
  yPolylines : Option (List (K × K) × List (K × K))
  dupeVerts : Option Bool
  degenerate : Option Bool
  bbox : Option (Box K)
  centroid : Option (Option (Vec2 K))
  maxR : Option K
  maxR2 : Option K
  minR : Option K
  minR2 : Option K
  triTest : Option (TriClosure K)
  deriving Repr

namespace Polygon

/-- `self[i]` where the index is known to be in range (the default is never used there). -/
def nth [Zero K] (l : List (Vec2 K)) (i : Int) : Vec2 K :=
  match pyGet l i with
  | .ok v => v
  | .error _ => Vec2.null

/-- polygon.py:180-196 `_clear_cached_properties` on an object with vertices `verts`. A polygon with
more than three vertices never owns a triangle closure unless it is kept from before
(`oldTri`): the code deletes it only for short vertex lists. -/
def cleared (verts : List (Vec2 K)) (oldTri : Option (TriClosure K)) : Polygon K :=
  let long : Bool := verts.length > 3
  { verts := verts
    convex := if long then none else some true
    simple := if long then none else some true
    yPolylines := none
    dupeVerts := none
    degenerate := none
    bbox := none
    centroid := none
    maxR := none, maxR2 := none, minR := none, minR2 := none
    triTest := if long then oldTri else none }

/-- polygon.py:180-196 `_clear_cached_properties`. -/
def clearCached (s : Polygon K) : Polygon K := cleared s.verts s.triTest

/-- polygon.py:173-178 `Polygon.from_points`: no check of the number of points. -/
def fromPoints (points : List (Vec2 K)) : Polygon K := cleared points none

section Classify
variable [Add K] [Sub K] [Mul K] [Zero K] [One K] [BEq K] [LT K] [LE K] [DecidableLT K] [DecidableLE K]

/-- polygon.py:226-230 `_iter_edge_vectors`. -/
def edgeVectors (verts : List (Vec2 K)) : List (Vec2 K) :=
  (List.range verts.length).map fun (i : Nat) => nth verts i - nth verts ((i : Int) - 1)

/-- polygon.py:244-248 and 252-256: -1 for a vector pointing right (or straight up), 1 for left (or
straight down), 0 for the null vector. -/
def lexDir (v : Vec2 K) : Int :=
  if v.x > 0 then -1 else if v.x < 0 then 1 else if v.y > 0 then -1 else if v.y < 0 then 1 else 0

/-- The local variables of `_classify` that survive its loop. -/
structure ClassRes where
  dirChanges : Nat
  angleSign : Int
  count : Nat
  convex : Bool
  deriving Repr

/-- polygon.py:249-270 the loop of `_classify` over the remaining non-null edge vectors. -/
def classifyLoop : List (Vec2 K) → (lastDelta : Vec2 K) → (lastDir : Int) →
    (dirChanges : Nat) → (angleSign : Int) → (count : Nat) → ClassRes
  | [], _, _, dc, sg, n => ⟨dc, sg, n, true⟩
  | delta :: rest, lastDelta, lastDir, dc, sg, n =>
    let n := n + 1
    let thisDir := lexDir delta
    let dc := if thisDir = -lastDir then dc + 1 else dc
    let cross := lastDelta.cross delta
    if cross > 0 then
      if sg = -1 then ⟨dc, sg, n, false⟩ else classifyLoop rest delta thisDir dc 1 n
    else if cross < 0 then
      if sg = 1 then ⟨dc, sg, n, false⟩ else classifyLoop rest delta thisDir dc (-1) n
    else classifyLoop rest delta thisDir dc sg n

/-- polygon.py:238-270 `_classify` up to the end of its loop. -/
def classifyRun (verts : List (Vec2 K)) : ClassRes :=
  let lastDelta := nth verts (-1) - nth verts (-2)
  classifyLoop ((edgeVectors verts).filter Vec2.truthy) lastDelta (lexDir lastDelta) 0 0 0

/-- polygon.py:285-300: the running extremes of `_split_y_polylines` and their indices. -/
structure YExt (K : Type) where
  minY : K
  maxY : K
  minX : K
  maxX : K
  minI : Nat
  maxI : Nat
  leftI : Nat
  rightI : Nat
  deriving Repr

/-- polygon.py:288-300 one iteration of the loop. -/
def yExtStep (e : YExt K) (iv : Nat × Vec2 K) : YExt K :=
  let e := if iv.2.y < e.minY then { e with minY := iv.2.y, minI := iv.1 } else e
  let e := if iv.2.y > e.maxY then { e with maxY := iv.2.y, maxI := iv.1 } else e
  let e := if iv.2.x < e.minX then { e with minX := iv.2.x, leftI := iv.1 } else e
  let e := if iv.2.x > e.maxX then { e with maxX := iv.2.x, rightI := iv.1 } else e
  e

/-- polygon.py:285-300. -/
def yExtremes (verts : List (Vec2 K)) : YExt K :=
  let v0 := nth verts 0
  ((List.range verts.length).zip verts).foldl yExtStep ⟨v0.y, v0.y, v0.x, v0.x, 0, 0, 0, 0⟩

/-- polygon.py:317-320: reverse a polyline whose first y is above its last y. -/
def upward (pl : List (K × K)) : List (K × K) :=
  match pl.head?, pl.getLast? with
  | some a, some b => if a.1 > b.1 then pl.reverse else pl
  | _, _ => pl

/-- polygon.py:281-320 `_split_y_polylines`: the value stored in `_y_polylines`
(left, right). -/
def splitYPolylines (verts : List (Vec2 K)) : List (K × K) × List (K × K) :=
  let e := yExtremes verts
  let yx : List (K × K) := verts.map fun v => (v.y, v.x)
  if e.minI < e.maxI then
    let pl1 := (yx.take (e.maxI + 1)).drop e.minI
    let pl2 := yx.drop e.maxI ++ yx.take (e.minI + 1)
    if (e.minI ≤ e.leftI ∧ e.leftI < e.maxI) ∨ e.rightI < e.minI ∨ e.rightI > e.maxI then
      (upward pl1, upward pl2)
    else (upward pl2, upward pl1)
  else
    let pl1 := (yx.take (e.minI + 1)).drop e.maxI
    let pl2 := yx.drop e.minI ++ yx.take (e.maxI + 1)
    if (e.minI ≥ e.leftI ∧ e.leftI > e.maxI) ∨ e.rightI > e.minI ∨ e.rightI < e.maxI then
      (upward pl1, upward pl2)
    else (upward pl2, upward pl1)

/-- polygon.py:232-279 `_classify` (the attribute `_winding`, which nothing reads, is left out). -/
def classify (s : Polygon K) : Polygon K :=
  let r := classifyRun s.verts
  let convex := if r.dirChanges ≤ 2 then r.convex else false
  let degenerate := r.count == 0 || r.angleSign == 0
  let s := { s with
    convex := some convex
    simple := if convex then some true else none
    degenerate := some degenerate }
  if convex && !degenerate then
    { s with
      dupeVerts := some (decide (r.count < s.verts.length))
      yPolylines := some (splitYPolylines s.verts) }
  else s

/-- polygon.py:205-214 `is_convex`. The value `none` would be the marker object; it cannot be
returned because `classify` always sets the attribute. -/
def isConvex (s : Polygon K) : Bool × Polygon K :=
  match s.convex with
  | some b => (b, s)
  | none => let s := s.classify; (s.convex.getD false, s)

/-- polygon.py:216-224 `is_convex_known`. -/
def isConvexKnown (s : Polygon K) : Bool := s.convex.isSome

/-- polygon.py:76-87 `Polygon(vertices, is_convex, is_simple)`; `none` is an omitted flag. -/
def new (vertices : List (Vec2 K)) (isConvex isSimple : Option Bool := none) : Py (Polygon K) :=
  let verts := vertices.map Vec2.copy
  if verts.length < 3 then .error .valueError
  else
    let s := cleared verts none
    let s := match isConvex, s.convex with
      | some c, none =>
        let s := { s with convex := some c, simple := if c then some true else none }
        if c && verts.length > 3 then { s with yPolylines := some (splitYPolylines verts) } else s
      | _, _ => s
    let s := match isSimple, s.simple with
      | some b, none => { s with simple := some b }
      | _, _ => s
    .ok s

/-- polygon.py:198-203 `bounding_box`. -/
def boundingBox (s : Polygon K) : Py (Box K) × Polygon K :=
  match s.bbox with
  | some b => (.ok b, s)
  | none => match Box.fromPoints s.verts with
    | .error e => (.error e, s)
    | .ok b => (.ok b, { s with bbox := some b })

end Classify

section Simple
variable [Add K] [Sub K] [Mul K] [Zero K] [One K] [BEq K] [LT K] [LE K] [DecidableLT K] [DecidableLE K]

/-- polygon.py:349-360 `_segments_intersect`. -/
def segmentsIntersect (a b c d : Vec2 K) : Bool :=
  let dir1 := (b.x - a.x)*(c.y - a.y) - (c.x - a.x)*(b.y - a.y)
  let dir2 := (b.x - a.x)*(d.y - a.y) - (d.x - a.x)*(b.y - a.y)
  if (decide (dir1 > 0) != decide (dir2 > 0)) || ((dir1 == 0) != (dir2 == 0)) then
    let dir1 := (d.x - c.x)*(a.y - c.y) - (a.x - c.x)*(d.y - c.y)
    let dir2 := (d.x - c.x)*(b.y - c.y) - (b.x - c.x)*(d.y - c.y)
    (decide (dir1 > 0) != decide (dir2 > 0)) || ((dir1 == 0) != (dir2 == 0))
  else false

/-- polygon.py:375-376: an entry `(start, end, index)` of the sweep. -/
structure SweepPt (K : Type) where
  start : Vec2 K
  stop : Vec2 K
  index : Nat
  deriving Repr

/-- Python tuple comparison `a < b` of two coordinate pairs, continued by `rest` on equal pairs. -/
def vecLtThen (a b : Vec2 K) (rest : Bool) : Bool :=
  if a.x == b.x then (if a.y == b.y then rest else decide (a.y < b.y)) else decide (a.x < b.x)

/-- Python tuple comparison of two sweep entries. -/
def sweepLt (a b : SweepPt K) : Bool :=
  vecLtThen a.start b.start (vecLtThen a.stop b.stop (decide (a.index < b.index)))

/-- polygon.py:375-377: the sorted entries, two per edge. -/
def sweepPoints (verts : List (Vec2 K)) : List (SweepPt K) :=
  let idx := List.range verts.length
  let pts := idx.map (fun (i : Nat) => SweepPt.mk (nth verts ((i : Int) - 1)) (nth verts i) i)
    ++ idx.map (fun (i : Nat) => SweepPt.mk (nth verts i) (nth verts ((i : Int) - 1)) i)
  pySorted sweepLt pts

/-- polygon.py:384-388: does the new edge meet an open, non-adjacent one? -/
def meetsOpen (lastIndex : Nat) (p : SweepPt K) (opens : List (SweepPt K)) : Bool :=
  opens.any fun o =>
    let gap := ((p.index : Int) - (o.index : Int)).natAbs
    (lastIndex > gap && gap > 1) && segmentsIntersect p.start p.stop o.start o.stop

/-- polygon.py:380-395 the sweep; `opens` is the dict `open_segments` in insertion order. -/
def sweepLoop (lastIndex : Nat) : List (SweepPt K) → List (SweepPt K) → Bool
  | [], _ => true
  | p :: ps, opens =>
    if opens.any (fun o => o.index == p.index) then
      sweepLoop lastIndex ps (opens.filter fun o => o.index != p.index)
    else if meetsOpen lastIndex p opens then false
    else sweepLoop lastIndex ps (opens ++ [p])

/-- polygon.py:362-395 `_check_is_simple`: the value stored in `_simple`. -/
def checkSimple (verts : List (Vec2 K)) : Bool :=
  sweepLoop (verts.length - 1) (sweepPoints verts) []

/-- polygon.py:322-337 `is_simple`. -/
def isSimple (s : Polygon K) : Bool × Polygon K :=
  match s.simple with
  | some b => (b, s)
  | none =>
    let s := match s.convex with
      | none => s.classify
      | some _ => s
    match s.simple with
    | some b => (b, s)
    | none => let b := checkSimple s.verts; (b, { s with simple := some b })

/-- polygon.py:339-347 `is_simple_known`. -/
def isSimpleKnown (s : Polygon K) : Bool := s.simple.isSome

end Simple

section Centroid
variable [Add K] [Sub K] [Mul K] [Div K] [Zero K] [One K] [BEq K] [LT K] [LE K] [DecidableLT K]
  [DecidableLE K]

/-- polygon.py:417-423 the loop of `centroid`: the weighted sum and the total area. -/
def centroidLoop (a : Vec2 K) : List (Vec2 K) → (b : Vec2 K) → (centroid : Vec2 K) → (total : K) →
    Vec2 K × K
  | [], _, cen, total => (cen, total)
  | c :: rest, b, cen, total =>
    let area := (b.x - a.x) * (c.y - a.y) - (c.x - a.x) * (b.y - a.y)
    centroidLoop a rest c (cen + (a + b + c).smul area) (total + area)

/-- polygon.py:413-424: the centroid of a simple polygon; 3.0 is `1 + 1 + 1`. -/
def computeCentroid (verts : List (Vec2 K)) : Py (Vec2 K) := do
  let a ← pyGet verts 0
  let b ← pyGet verts 1
  let r := centroidLoop a (verts.drop 2) b (Vec2.mk' 0 0) 0
  r.1.sdiv ((1 + 1 + 1) * r.2)

/-- polygon.py:397-427 `centroid`; the value `none` is None. -/
def getCentroid (s : Polygon K) : Py (Option (Vec2 K)) × Polygon K :=
  match s.centroid with
  | some c => (.ok c, s)
  | none =>
    let r := s.isSimple
    let s := r.2
    if r.1 then
      match computeCentroid s.verts with
      | .error e => (.error e, s)
      | .ok c => (.ok (some c), { s with centroid := some (some c) })
    else (.ok none, { s with centroid := some none })

/-- polygon.py:429-435 `is_centroid_known`. -/
def isCentroidKnown (s : Polygon K) : Bool := s.centroid.isSome

end Centroid

/-- polygon.py:437-439 `self[i] = vert`. When the index is bad the exception leaves before
`_clear_cached_properties`. -/
def setItem [Mul K] [One K] (s : Polygon K) (i : Int) (vert : Vec2 K) : Py Unit × Polygon K :=
  match pySet s.verts i vert.copy with
  | .error e => (.error e, s)
  | .ok vs => (.ok (), { s with verts := vs }.clearCached)

/-- transform.py:300-301: the loop of `itransform` on a polygon: every write goes through
`Polygon.__setitem__` and clears the caches. -/
def itransformFrom [Add K] [Mul K] [One K] (T : Affine K) (s : Polygon K) (i : Nat) : Polygon K :=
  if h : i < s.verts.length then
    let v := s.verts[i]
    let w := Vec2.mk' (v.x*T.a + v.y*T.d + T.c) (v.x*T.b + v.y*T.e + T.f)
    itransformFrom T { s with verts := s.verts.set i w.copy }.clearCached (i + 1)
  else s
termination_by s.verts.length - i
decreasing_by simp [clearCached, cleared]; omega

/-- polygon.py:515-522 `__imul__` with a transform. -/
def imul [Add K] [Mul K] [Zero K] [One K] [BEq K] (s : Polygon K) (T : Affine K) : Polygon K :=
  let s := if T != Affine.identity then itransformFrom T s 0 else s
  s.clearCached

/-- transform.py:260-267: `T * polygon`. -/
def transformed [Add K] [Mul K] [One K] (s : Polygon K) (T : Affine K) : Polygon K :=
  fromPoints (T.applyPts s.verts)

section Eq
variable [BEq K] [Zero K]

/-- A trigram with its repetition number, polygon.py:464. -/
abbrev TGram (K : Type) := Vec2 K × Vec2 K × Vec2 K × Nat

/-- polygon.py:465-467: the `while tgram in edges` loop from repetition number `k` on; `fuel` bounds
the iterations (the set is finite). -/
def freshGram (edges : List (TGram K)) (a b c : Vec2 K) : (fuel k : Nat) → TGram K
  | 0, k => (a, b, c, k)
  | fuel + 1, k => if edges.contains (a, b, c, k) then freshGram edges a b c fuel (k + 1)
      else (a, b, c, k)

/-- polygon.py:461-468: the set `self_edges` (a list without repetitions). -/
def selfEdges (verts : List (Vec2 K)) : List (TGram K) :=
  (List.range verts.length).foldl (fun edges (i : Nat) =>
    edges ++ [freshGram edges (nth verts ((i : Int) - 2)) (nth verts ((i : Int) - 1)) (nth verts i)
      (edges.length + 1) 0]) []

/-- polygon.py:472-481 and 488-497: add the trigrams `grams` to `other_edges`; `none` when one is
not in `self_edges`. -/
def otherEdges (selfE : List (TGram K)) : List (Vec2 K × Vec2 K × Vec2 K) → List (TGram K) →
    Option (List (TGram K))
  | [], edges => some edges
  | (a, b, c) :: rest, edges =>
    let t := freshGram edges a b c (edges.length + 1) 0
    if selfE.contains t then otherEdges selfE rest (edges ++ [t]) else none

/-- Equality of two Python sets given as lists without repetitions. -/
def setEq (s o : List (TGram K)) : Bool := s.length == o.length && s.all fun t => o.contains t

/-- polygon.py:441-498 `__eq__` between polygons (`self is other` answers True, as the comparison of
the vertices does). -/
def eq (s o : Polygon K) : Bool :=
  if s.verts.length != o.verts.length then false
  else if (s.verts.zip o.verts).all fun ab => ab.1 == ab.2 then true
  else
    let selfE := selfEdges s.verts
    let idx := List.range o.verts.length
    let fwd := otherEdges selfE
      (idx.map fun (i : Nat) =>
        (nth o.verts ((i : Int) - 2), nth o.verts ((i : Int) - 1), nth o.verts i)) []
    let bwd := otherEdges selfE
      (idx.map fun (i : Nat) =>
        (nth o.verts i, nth o.verts ((i : Int) - 1), nth o.verts ((i : Int) - 2))) []
    let hit := match fwd with
      | some e => setEq selfE e
      | none => false
    if hit then true
    else match bwd with
      | some e => setEq selfE e
      | none => false

/-- polygon.py:500-501 `__ne__`. -/
def ne (s o : Polygon K) : Bool := !s.eq o

end Eq

/-- polygon.py:524-537 `__copy__` (attributes not named there stay as `from_points` set them). -/
def copy (s : Polygon K) : Polygon K :=
  { fromPoints s.verts with
    convex := s.convex, simple := s.simple, yPolylines := s.yPolylines
    dupeVerts := s.dupeVerts, degenerate := s.degenerate, bbox := s.bbox, centroid := s.centroid
    maxR := s.maxR, maxR2 := s.maxR2, minR := s.minR, minR2 := s.minR2 }

/-- polygon.py:539-543 `__deepcopy__`. -/
def deepcopy (s : Polygon K) : Polygon K := { s.copy with yPolylines := none, bbox := none }

section Contains
variable [Add K] [Sub K] [Mul K] [Div K] [Zero K] [One K] [BEq K] [LT K] [LE K] [DecidableLT K]
  [DecidableLE K]

/-- polygon.py:566-581 one iteration of the winding loop: the change of `winding_no` for the edge
`v0`→`v1`. -/
def windStep (p v0 v1 : Vec2 K) : Int :=
  let v0Above : Bool := v0.y ≥ p.y
  let v1Above : Bool := v1.y ≥ p.y
  if v0Above != v1Above then
    if v1Above then
      if (v1.x - v0.x) * (p.y - v0.y) - (p.x - v0.x) * (v1.y - v0.y) ≤ 0 then 1 else 0
    else
      if (v1.x - v0.x) * (p.y - v0.y) - (p.x - v0.x) * (v1.y - v0.y) ≥ 0 then -1 else 0
  else 0

/-- polygon.py:566-581 the winding loop. -/
def windLoop (p : Vec2 K) : List (Vec2 K) → (v0 : Vec2 K) → (w : Int) → Int
  | [], _, w => w
  | v1 :: rest, v0, w => windLoop p rest v1 (w + windStep p v0 v1)

/-- polygon.py:547-582 `_pnp_winding_test`. -/
def pnpWinding (verts : List (Vec2 K)) (p : Vec2 K) : Bool :=
  windLoop p verts (nth verts (-1)) 0 != 0

/-- Python tuple comparison `(py,) < (y, x)`. -/
def ptLt (py : K) (yx : K × K) : Bool := if py == yx.1 then true else decide (py < yx.1)

/-- CPython `bisect.bisect_right(pl, (py,))`: the loop with bounds `lo`, `hi`. -/
def bisectLoop (pl : List (K × K)) (py : K) (lo hi : Nat) : Nat :=
  if _h : lo < hi then
    let mid := (lo + hi) / 2
    match pl[mid]? with
    | some yx => if ptLt py yx then bisectLoop pl py lo mid else bisectLoop pl py (mid + 1) hi
    | none => lo
  else lo
termination_by hi - lo
decreasing_by all_goals omega

/-- CPython `bisect.bisect_right(pl, (py,))`. -/
def bisectRight (pl : List (K × K)) (py : K) : Nat := bisectLoop pl py 0 pl.length

/-- polygon.py:584-607 `_pnp_y_monotone_test`. -/
def pnpYMonotone (pls : List (K × K) × List (K × K)) (p : Vec2 K) : Py Bool :=
  let lpline := pls.1
  let rpline := pls.2
  let i := bisectRight lpline p.y
  if i = 0 || i = lpline.length then .ok false
  else do
    let (v0y, v0x) ← pyGet lpline ((i : Int) - 1)
    let (v1y, v1x) ← pyGet lpline i
    if (v1x - v0x) * (p.y - v0y) - (p.x - v0x) * (v1y - v0y) > 0 then return false
    let i := bisectRight rpline p.y
    let (v0y, v0x) ← pyGet rpline ((i : Int) - 1)
    let (v1y, v1x) ← pyGet rpline i
    return decide ((v1x - v0x) * (p.y - v0y) - (p.x - v0x) * (v1y - v0y) > 0)

/-- polygon.py:619: the order of `sorted(self, key=(y, x))`. -/
def yxLt (a b : Vec2 K) : Bool :=
  if a.y == b.y then decide (a.x < b.x) else decide (a.y < b.y)

/-- polygon.py:637-642 and 646-651: the two closures. -/
def TriClosure.run (c : TriClosure K) (point : PyPoint K) : Py Bool := do
  let v2 ← point.sub c.mid
  let dot02 := c.v0.dot v2
  let dot12 := c.v1.dot v2
  let u := (c.dot11 * dot02 - c.dot01 * dot12) * c.invDenom
  let v := (c.dot00 * dot12 - c.dot01 * dot02) * c.invDenom
  if c.leading then return (decide (u ≥ 0) && decide (v ≥ 0) && decide (u + v < 1))
  else return (decide (u > 0) && decide (v > 0) && decide (u + v ≤ 1))

/-- polygon.py:609-651 `_pnp_triangle_test` up to the stored closure: `none` when it answers False
without building one. Needs exactly three vertices (unpacking). -/
def triangleClosure (eps : K) (verts : List (Vec2 K)) : Py (Option (TriClosure K)) :=
  match pySorted yxLt verts with
  | [lo, mid, hi] =>
    let v0 := lo - mid
    let v1 := hi - mid
    if v0.isNull eps || v1.isNull eps then .ok none
    else
      let dot01 := v0.dot v1
      let dot00 := v0.length2
      let dot11 := v1.length2
      let denom := dot00 * dot11 - dot01 * dot01
      if denom == 0 then .ok none
      else do
        let inv ← pydiv 1 denom
        return some ⟨mid, v0, v1, dot01, dot00, dot11, inv,
          decide ((hi.x - lo.x)*(mid.y - lo.y) - (mid.x - lo.x)*(hi.y - lo.y) > 0)⟩
  | _ => .error .valueError

/-- polygon.py:609-656 `self._pnp_triangle_test(point)`, including the closure stored in the
instance, which intercepts later calls. -/
def pnpTriangle (eps : K) (s : Polygon K) (point : PyPoint K) : Py Bool × Polygon K :=
  match s.triTest with
  | some c => (TriClosure.run c point, s)
  | none => match triangleClosure eps s.verts with
    | .error e => (.error e, s)
    | .ok none => (.ok false, s)
    | .ok (some c) => (TriClosure.run c point, { s with triTest := some c })

/-- polygon.py:658-688 `contains_point`. -/
def containsPoint (eps : K) (s : Polygon K) (point : PyPoint K) : Py Bool × Polygon K :=
  let sides := s.verts.length
  if sides = 3 then s.pnpTriangle eps point
  else
    /- polygon.py:678-683: `some` answer, or go on -/
    let radial : Py (Option Bool) :=
      match s.centroid with
      | none => .ok none
      | some c =>
        if sides > 4 then
          match c with
          | none => .error .typeError   -- `None - point`
          | some c =>
            let d2 := (c - point.toVec).length2
            if (match s.minR2 with | some r => decide (d2 < r) | none => false) then .ok (some true)
            else if (match s.maxR2 with | some r => decide (d2 > r) | none => false) then
              .ok (some false)
            else .ok none
        else .ok none
    match radial with
    | .error e => (.error e, s)
    | .ok (some b) => (.ok b, s)
    | .ok none =>
      match s.yPolylines with
      | some pls => (pnpYMonotone pls point.toVec, s)
      | none =>
        if sides = 4 then (.ok (pnpWinding s.verts point.toVec), s)
        else match s.boundingBox with
          | (.error e, s) => (.error e, s)
          | (.ok b, s) =>
            if b.containsPoint point.toVec then (.ok (pnpWinding s.verts point.toVec), s)
            else (.ok false, s)

end Contains

/-- polygon.py:503-511: the arguments printed by `repr`. `is_convex` is only read when known. -/
def reprArgs (s : Polygon K) : List (Vec2 K) × Option Bool × Option Bool :=
  match s.convex with
  | none => (s.verts, none, none)
  | some true => (s.verts, some true, none)
  | some false => (s.verts, some false, s.simple)

section Radial
variable [PyMath K] [Add K] [Sub K] [Mul K] [Div K] [Neg K] [Zero K] [One K] [BEq K] [LT K] [LE K]
  [DecidableLT K] [DecidableLE K]

/-- polygon.py:109-112 the loop of `regular`. -/
def regularVerts (step radius : K) (c : Vec2 K) : (n : Nat) → (angle : K) → List (Vec2 K)
  | 0, _ => []
  | n + 1, angle =>
    let cs := cosSinDeg angle
    ⟨cs.1 * radius + c.x, cs.2 * radius + c.y⟩ :: regularVerts step radius c n (angle + step)

/-- polygon.py:117 and 166-167: `((poly[0] + poly[1]) * 0.5 - center).length`. -/
def midRadius (verts : List (Vec2 K)) (c : Vec2 K) : K :=
  ((nth verts 0 + nth verts 1).smul (1 / (1 + 1)) - c).length

/-- polygon.py:89-120 `Polygon.regular`. `range(n)` is empty for a negative count. -/
def regular (n : Int) (radius : K) (center : Vec2 K) (angle : K) : Py (Polygon K) := do
  let step ← pydiv (PyMath.ofInt 360) (PyMath.ofInt n)
  let poly ← new (regularVerts step radius center n.toNat angle) (some true) none
  let minR := midRadius poly.verts center
  return { poly with
    centroid := some (some center.copy)
    maxR := some radius
    maxR2 := some (radius * radius)
    minR := some minR
    minR2 := some (minR * minR)
    dupeVerts := some false }

/-- polygon.py:147-153 the loop of `star`. -/
def starVerts (step r1 r2 : K) (c : Vec2 K) : (n : Nat) → (angle : K) → List (Vec2 K)
  | 0, _ => []
  | n + 1, angle =>
    let cs := cosSinDeg angle
    let cs' := cosSinDeg (angle + step)
    ⟨cs.1 * r1 + c.x, cs.2 * r1 + c.y⟩ :: ⟨cs'.1 * r2 + c.x, cs'.2 * r2 + c.y⟩ ::
      starVerts step r1 r2 c n (angle + step + step)

/-- polygon.py:122-171 `Polygon.star`. `is_convex` is always known here: it was declared. -/
def star (n : Int) (r1 r2 : K) (center : Vec2 K) (angle : K) : Py (Polygon K) :=
  if n < 2 then .error .valueError
  else do
    let step ← pydiv (PyMath.ofInt 180) (PyMath.ofInt n)
    let isSimple : Bool := (decide (r1 > 0)) == (decide (r2 > 0))
    let poly ← new (starVerts step r1 r2 center n.toNat angle) (some (r1 == r2))
      (if isSimple then some true else none)
    let poly := if isSimple then { poly with centroid := some (some center.copy) } else poly
    let maxR := pymax (pyabs r1) (pyabs r2)
    let poly := { poly with maxR := some maxR, maxR2 := some (maxR * maxR) }
    let poly :=
      if (decide (r1 ≥ 0)) == (decide (r2 ≥ 0)) then
        let minR := if !(poly.convex.getD false) then pymin (pyabs r1) (pyabs r2)
          else midRadius poly.verts center
        { poly with minR := some minR, minR2 := some (minR * minR) }
      else poly
    let poly := if decide (r1 > 0) && decide (r2 > 0) then { poly with dupeVerts := some false } else poly
    return poly

end Radial

end Polygon
end Planar
