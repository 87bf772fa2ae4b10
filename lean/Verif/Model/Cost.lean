import Verif.Model.Hull
import Verif.Model.Tangents
/- The loops of polygon.py once more, with a count of the steps they take. A step is one passage of a loop (or one
comparison of `bisect`, one point handed to `sorted` and so on); everything a step does takes constant time: arithmetic,
indexing a list, appending to one, membership in a dict or a set. `C86_same_answers`, `C87_same_answers` and
`C88_same_answers` prove that the counted versions compute what the uncounted ones (the model proper) do.

Python's own `sorted`/`list.sort` on `m` items is charged `m * (log2 m + 1)` steps. -/
namespace Planar
variable {K : Type}

/-- A result and the number of steps taken. -/
structure Counted (α : Type) where
  val : α
  steps : Nat

namespace Counted
/-- No step. -/
def ret {α : Type} (a : α) : Counted α := ⟨a, 0⟩
/-- `k` more steps. -/
def tick {α : Type} (k : Nat) (c : Counted α) : Counted α := ⟨c.val, c.steps + k⟩
/-- One after the other. -/
def andThen {α β : Type} (c : Counted α) (f : α → Counted β) : Counted β := ⟨(f c.val).val, c.steps + (f c.val).steps⟩
end Counted

/-- The charge for `sorted` on `m` items. -/
def sortCharge (m : Nat) : Nat := m * (Nat.log2 m + 1)

namespace Polygon
open Counted

section Contains
variable [Add K] [Sub K] [Mul K] [Div K] [Zero K] [One K] [BEq K] [LT K] [LE K] [DecidableLT K] [DecidableLE K]

/-- CPython `bisect.bisect_right(pl, (py,))`, one step per comparison (see `bisectLoop`). -/
def bisectLoopC (pl : List (K × K)) (py : K) (lo hi : Nat) : Counted Nat :=
  if _h : lo < hi then
    let mid := (lo + hi) / 2
    match pl[mid]? with
    | some yx => tick 1 (if ptLt py yx then bisectLoopC pl py lo mid else bisectLoopC pl py (mid + 1) hi)
    | none => ret lo
  else ret lo
termination_by hi - lo
decreasing_by all_goals omega

/-- polygon.py:584-607 `_pnp_y_monotone_test` (see `pnpYMonotone`). -/
def pnpYMonotoneC (pls : List (K × K) × List (K × K)) (p : Vec2 K) : Counted (Py Bool) :=
  andThen (bisectLoopC pls.1 p.y 0 pls.1.length) fun i =>
    if i = 0 || i = pls.1.length then ret (.ok false)
    else
      match pyGet pls.1 ((i : Int) - 1) with
      | .error e => ret (.error e)
      | .ok (v0y, v0x) => match pyGet pls.1 i with
        | .error e => ret (.error e)
        | .ok (v1y, v1x) =>
          if (v1x - v0x) * (p.y - v0y) - (p.x - v0x) * (v1y - v0y) > 0 then ret (.ok false)
          else andThen (bisectLoopC pls.2 p.y 0 pls.2.length) fun j => ret (do
            let (v0y, v0x) ← pyGet pls.2 ((j : Int) - 1)
            let (v1y, v1x) ← pyGet pls.2 j
            return decide ((v1x - v0x) * (p.y - v0y) - (p.x - v0x) * (v1y - v0y) > 0))

/-- polygon.py:566-581 the winding loop, one step per edge (see `windLoop`). -/
def windLoopC (p : Vec2 K) : List (Vec2 K) → (v0 : Vec2 K) → (w : Int) → Counted Int
  | [], _, w => ret w
  | v1 :: rest, v0, w => tick 1 (windLoopC p rest v1 (w + windStep p v0 v1))

/-- polygon.py:547-582 `_pnp_winding_test` (see `pnpWinding`). -/
def pnpWindingC (verts : List (Vec2 K)) (p : Vec2 K) : Counted Bool :=
  andThen (windLoopC p verts (nth verts (-1)) 0) fun w => ret (w != 0)

/-- box.py:49-64 the loop of `BoundingBox(points)`, one step per point (see `Box.fromPoints`). -/
def boxLoopC : List (Vec2 K) → Vec2 K × Vec2 K → Counted (Vec2 K × Vec2 K)
  | [], acc => ret acc
  | q :: qs, acc => tick 1 (boxLoopC qs (Box.step acc.1 acc.2 q))

/-- box.py:45-64 (see `Box.fromPoints`). -/
def boxFromPointsC : List (Vec2 K) → Counted (Py (Box K))
  | [] => ret (.error .valueError)
  | p :: ps => tick 1 (andThen (boxLoopC ps (p, p)) fun r => ret (.ok ⟨r.1.copy, r.2.copy⟩))

/-- polygon.py:198-203 `bounding_box` (see `boundingBox`). -/
def boundingBoxC (s : Polygon K) : Counted (Py (Box K) × Polygon K) :=
  match s.bbox with
  | some b => ret (.ok b, s)
  | none => andThen (boxFromPointsC s.verts) fun r => ret (match r with
    | .error e => (.error e, s)
    | .ok b => (.ok b, { s with bbox := some b }))

/-- polygon.py:609-656 `_pnp_triangle_test` (see `pnpTriangle`): three steps, one for each vertex, when the closure has
to be made; one step for running it. -/
def pnpTriangleC (eps : K) (s : Polygon K) (point : PyPoint K) : Counted (Py Bool × Polygon K) :=
  match s.triTest with
  | some c => tick 1 (ret (TriClosure.run c point, s))
  | none => tick 3 (match triangleClosure eps s.verts with
    | .error e => ret (.error e, s)
    | .ok none => ret (.ok false, s)
    | .ok (some c) => tick 1 (ret (TriClosure.run c point, { s with triTest := some c })))

/-- polygon.py:658-688 `contains_point` (see `containsPoint`). -/
def containsPointC (eps : K) (s : Polygon K) (point : PyPoint K) : Counted (Py Bool × Polygon K) :=
  let sides := s.verts.length
  if sides = 3 then s.pnpTriangleC eps point
  else
    let radial : Py (Option Bool) :=
      match s.centroid with
      | none => .ok none
      | some c =>
        if sides > 4 then
          match c with
          | none => .error .typeError
          | some c =>
            let d2 := (c - point.toVec).length2
            if (match s.minR2 with | some r => decide (d2 < r) | none => false) then .ok (some true)
            else if (match s.maxR2 with | some r => decide (d2 > r) | none => false) then .ok (some false)
            else .ok none
        else .ok none
    tick 1 (match radial with
    | .error e => ret (.error e, s)
    | .ok (some b) => ret (.ok b, s)
    | .ok none =>
      match s.yPolylines with
      | some pls => andThen (pnpYMonotoneC pls point.toVec) fun b => ret (b, s)
      | none =>
        if sides = 4 then andThen (pnpWindingC s.verts point.toVec) fun b => ret (.ok b, s)
        else andThen s.boundingBoxC fun r => match r with
          | (.error e, s) => ret (.error e, s)
          | (.ok b, s) =>
            if b.containsPoint point.toVec then andThen (pnpWindingC s.verts point.toVec) fun b => ret (.ok b, s)
            else ret (.ok false, s))

end Contains

section Classify
variable [Add K] [Sub K] [Mul K] [Zero K] [One K] [BEq K] [LT K] [LE K] [DecidableLT K] [DecidableLE K]

/-- polygon.py:226-230 and 249-270: the loop of `_classify` over the edge vectors, one step for each edge looked at, null
edges (which the generator skips) included (see `classifyLoop`). -/
def classifyLoopC : List (Vec2 K) → (lastDelta : Vec2 K) → (lastDir : Int) →
    (dirChanges : Nat) → (angleSign : Int) → (count : Nat) → Counted ClassRes
  | [], _, _, dc, sg, n => ret ⟨dc, sg, n, true⟩
  | delta :: rest, lastDelta, lastDir, dc, sg, n => tick 1 (
    if delta.truthy then
      let n := n + 1
      let thisDir := lexDir delta
      let dc := if thisDir = -lastDir then dc + 1 else dc
      let cross := lastDelta.cross delta
      if cross > 0 then
        if sg = -1 then ret ⟨dc, sg, n, false⟩ else classifyLoopC rest delta thisDir dc 1 n
      else if cross < 0 then
        if sg = 1 then ret ⟨dc, sg, n, false⟩ else classifyLoopC rest delta thisDir dc (-1) n
      else classifyLoopC rest delta thisDir dc sg n
    else classifyLoopC rest lastDelta lastDir dc sg n)

/-- polygon.py:281-320 `_split_y_polylines` (see `splitYPolylines`): one step per vertex for the extremes, and one for
each entry of the two polylines (they are cut out of the list, and possibly reversed). -/
def splitYPolylinesC (verts : List (Vec2 K)) : Counted (List (K × K) × List (K × K)) :=
  let pls := splitYPolylines verts
  tick (verts.length + pls.1.length + pls.2.length) (ret pls)

/-- polygon.py:232-279 `_classify` (see `classify`). -/
def classifyC (s : Polygon K) : Counted (Polygon K) :=
  let lastDelta := nth s.verts (-1) - nth s.verts (-2)
  andThen (classifyLoopC (edgeVectors s.verts) lastDelta (lexDir lastDelta) 0 0 0) fun r =>
    let convex := if r.dirChanges ≤ 2 then r.convex else false
    let degenerate := r.count == 0 || r.angleSign == 0
    let s := { s with
      convex := some convex
      simple := if convex then some true else none
      degenerate := some degenerate }
    if convex && !degenerate then
      andThen (splitYPolylinesC s.verts) fun pls =>
        ret { s with dupeVerts := some (decide (r.count < s.verts.length)), yPolylines := some pls }
    else ret s

/-- polygon.py:205-214 `is_convex` (see `isConvex`). -/
def isConvexC (s : Polygon K) : Counted (Bool × Polygon K) :=
  match s.convex with
  | some b => ret (b, s)
  | none => andThen s.classifyC fun s => ret (s.convex.getD false, s)

/-- polygon.py:384-388: one step per open segment looked at, until one is met (see `meetsOpen`). -/
def meetsOpenC (lastIndex : Nat) (p : SweepPt K) : List (SweepPt K) → Counted Bool
  | [] => ret false
  | o :: os => tick 1 (
    let gap := ((p.index : Int) - (o.index : Int)).natAbs
    if (lastIndex > gap && gap > 1) && segmentsIntersect p.start p.stop o.start o.stop then ret true
    else meetsOpenC lastIndex p os)

/-- polygon.py:380-395 the sweep, one step per entry and one per pair of segments looked at (see `sweepLoop`). -/
def sweepLoopC (lastIndex : Nat) : List (SweepPt K) → List (SweepPt K) → Counted Bool
  | [], _ => ret true
  | p :: ps, opens => tick 1 (
    if opens.any (fun o => o.index == p.index) then
      sweepLoopC lastIndex ps (opens.filter fun o => o.index != p.index)
    else andThen (meetsOpenC lastIndex p opens) fun m =>
      if m then ret false else sweepLoopC lastIndex ps (opens ++ [p]))

/-- polygon.py:362-395 `_check_is_simple` (see `checkSimple`): the entries are made, sorted and swept. -/
def checkSimpleC (verts : List (Vec2 K)) : Counted Bool :=
  tick (2 * verts.length + sortCharge (2 * verts.length)) (sweepLoopC (verts.length - 1) (sweepPoints verts) [])

/-- polygon.py:322-337 `is_simple` (see `isSimple`). -/
def isSimpleC (s : Polygon K) : Counted (Bool × Polygon K) :=
  match s.simple with
  | some b => ret (b, s)
  | none =>
    andThen (match s.convex with
      | none => s.classifyC
      | some _ => ret s) fun s =>
    match s.simple with
    | some b => ret (b, s)
    | none => andThen (checkSimpleC s.verts) fun b => ret (b, { s with simple := some b })

end Classify

section Centroid
variable [Add K] [Sub K] [Mul K] [Div K] [Zero K] [One K] [BEq K] [LT K] [LE K] [DecidableLT K] [DecidableLE K]

/-- polygon.py:417-423 the loop of `centroid`, one step per triangle (see `centroidLoop`). -/
def centroidLoopC (a : Vec2 K) : List (Vec2 K) → (b : Vec2 K) → (centroid : Vec2 K) → (total : K) →
    Counted (Vec2 K × K)
  | [], _, cen, total => ret (cen, total)
  | c :: rest, b, cen, total =>
    let area := (b.x - a.x) * (c.y - a.y) - (c.x - a.x) * (b.y - a.y)
    tick 1 (centroidLoopC a rest c (cen + (a + b + c).smul area) (total + area))

/-- polygon.py:413-424 (see `computeCentroid`). -/
def computeCentroidC (verts : List (Vec2 K)) : Counted (Py (Vec2 K)) :=
  match pyGet verts 0 with
  | .error e => ret (.error e)
  | .ok a => match pyGet verts 1 with
    | .error e => ret (.error e)
    | .ok b => andThen (centroidLoopC a (verts.drop 2) b (Vec2.mk' 0 0) 0) fun r => ret (r.1.sdiv ((1 + 1 + 1) * r.2))

/-- polygon.py:397-427 `centroid` (see `getCentroid`). -/
def getCentroidC (s : Polygon K) : Counted (Py (Option (Vec2 K)) × Polygon K) :=
  match s.centroid with
  | some c => ret (.ok c, s)
  | none => andThen s.isSimpleC fun r =>
    if r.1 then andThen (computeCentroidC r.2.verts) fun c => ret (match c with
      | .error e => (.error e, r.2)
      | .ok c => (.ok (some c), { r.2 with centroid := some (some c) }))
    else ret (.ok none, { r.2 with centroid := some none })

end Centroid

section Tangents
variable [Add K] [Sub K] [Mul K] [Zero K] [One K] [BEq K] [LT K] [LE K] [DecidableLT K] [DecidableLE K]

/-- polygon.py:705-717 the loop of `_pt_tangents`, one step per vertex (see `tangentsLoop`). -/
def tangentsLoopC (p : Vec2 K) : List (Vec2 K) → (v0 : Vec2 K) → (prevTurn : K) →
    (left right : Vec2 K) → Counted (Vec2 K × Vec2 K)
  | [], _, _, left, right => ret (left, right)
  | v1 :: rest, v0, prevTurn, left, right => tick 1 (
    let nextTurn := turn p v0 v1
    if prevTurn ≤ 0 ∧ nextTurn > 0 then
      let right := if (v0.x - p.x)*(right.y - p.y) - (right.x - p.x)*(v0.y - p.y) ≥ 0 then v0.copy
        else right
      tangentsLoopC p rest v1 nextTurn left right
    else if prevTurn > 0 ∧ nextTurn ≤ 0 then
      let left := if (v0.x - p.x)*(left.y - p.y) - (left.x - p.x)*(v0.y - p.y) ≤ 0 then v0.copy
        else left
      tangentsLoopC p rest v1 nextTurn left right
    else tangentsLoopC p rest v1 nextTurn left right)

/-- polygon.py:693-718 `_pt_tangents` (see `ptTangents`). -/
def ptTangentsC (verts : List (Vec2 K)) (p : Vec2 K) : Counted (Py (Vec2 K × Vec2 K)) :=
  match pyGet verts 0, pyGet verts (-2), pyGet verts (-1) with
  | .ok first, .ok v0, .ok v1 => andThen (tangentsLoopC p verts v1 (turn p v0 v1) first first) fun r => ret (.ok r)
  | .error e, _, _ => ret (.error e)
  | _, .error e, _ => ret (.error e)
  | _, _, .error e => ret (.error e)

/-- polygon.py:747-764 the loop of `_left_tan_i_convex`, one step per passage (see `leftTanLoop`). -/
def leftTanLoopC (verts : List (Vec2 K)) (p : Vec2 K) : (limit : Nat) → (a b : Int) → Counted (Py Int)
  | 0, a, _ => ret (.ok a)
  | limit + 1, a, b => tick 1 (
    let c := (a + b) / 2
    match pyGet verts (c + 1), pyGet verts c, pyGet verts (c - 1) with
    | .ok vc1, .ok vc, .ok vcm =>
      if !ptBelow p vc1 vc && ptAbove p vcm vc then ret (.ok c)
      else match pyGet verts (a + 1), pyGet verts a with
        | .ok va1, .ok va =>
          if ptBelow p va1 va then
            if !ptBelow p vc1 vc || ptBelow p va vc then leftTanLoopC verts p limit a c
            else leftTanLoopC verts p limit c b
          else
            if ptBelow p vc1 vc || !ptAbove p va vc then leftTanLoopC verts p limit c b
            else leftTanLoopC verts p limit a c
        | .error e, _ => ret (.error e)
        | _, .error e => ret (.error e)
    | .error e, _, _ => ret (.error e)
    | _, .error e, _ => ret (.error e)
    | _, _, .error e => ret (.error e))

/-- polygon.py:732-764 `_left_tan_i_convex` (see `leftTan`). -/
def leftTanC (verts : List (Vec2 K)) (p : Vec2 K) : Counted (Py Int) :=
  match pyGet verts 0, pyGet verts (-1), pyGet verts (-2) with
  | .ok v0, .ok vl, .ok vl2 =>
    if !ptBelow p v0 vl && ptAbove p vl2 vl then ret (.ok (-1))
    else leftTanLoopC verts p verts.length (-1) (verts.length - 1)
  | .error e, _, _ => ret (.error e)
  | _, .error e, _ => ret (.error e)
  | _, _, .error e => ret (.error e)

/-- polygon.py:781-798 the loop of `_right_tan_i_convex`, one step per passage (see `rightTanLoop`). -/
def rightTanLoopC (verts : List (Vec2 K)) (p : Vec2 K) : (limit : Nat) → (a b : Int) → Counted (Py Int)
  | 0, a, _ => ret (.ok a)
  | limit + 1, a, b => tick 1 (
    let c := (a + b) / 2
    match pyGet verts (c + 1), pyGet verts c, pyGet verts (c - 1) with
    | .ok vc1, .ok vc, .ok vcm =>
      if ptBelow p vc1 vc && !ptAbove p vcm vc then ret (.ok c)
      else match pyGet verts (a + 1), pyGet verts a with
        | .ok va1, .ok va =>
          if ptAbove p va1 va then
            if ptBelow p vc1 vc || ptAbove p va vc then rightTanLoopC verts p limit a c
            else rightTanLoopC verts p limit c b
          else
            if !ptBelow p vc1 vc || !ptBelow p va vc then rightTanLoopC verts p limit c b
            else rightTanLoopC verts p limit a c
        | .error e, _ => ret (.error e)
        | _, .error e => ret (.error e)
    | .error e, _, _ => ret (.error e)
    | _, .error e, _ => ret (.error e)
    | _, _, .error e => ret (.error e))

/-- polygon.py:766-798 `_right_tan_i_convex` (see `rightTan`). -/
def rightTanC (verts : List (Vec2 K)) (p : Vec2 K) : Counted (Py Int) :=
  match pyGet verts 0, pyGet verts (-1), pyGet verts (-2) with
  | .ok v0, .ok vl, .ok vl2 =>
    if ptBelow p v0 vl && !ptAbove p vl2 vl then ret (.ok (-1))
    else rightTanLoopC verts p verts.length (-1) (verts.length - 1)
  | .error e, _, _ => ret (.error e)
  | _, .error e, _ => ret (.error e)
  | _, _, .error e => ret (.error e)

/-- polygon.py:800-817 `tangents_to_point` (see `tangentsToPoint`). -/
def tangentsToPointC (s : Polygon K) (p : Vec2 K) : Counted (Py (Vec2 K × Vec2 K) × Polygon K) :=
  if s.verts.length > 20 then
    andThen s.isConvexC fun r =>
      if r.1 && !(r.2.dupeVerts.getD true) then
        andThen (leftTanC r.2.verts p) fun l => match l with
          | .error e => ret (.error e, r.2)
          | .ok l => match pyGet r.2.verts l with
            | .error e => ret (.error e, r.2)
            | .ok lv => andThen (rightTanC r.2.verts p) fun m => ret (do
                let m ← m
                let rv ← pyGet r.2.verts m
                return (lv, rv), r.2)
      else andThen (ptTangentsC r.2.verts p) fun t => ret (t, r.2)
  else andThen (ptTangentsC s.verts p) fun t => ret (t, s)

end Tangents
end Polygon

namespace Hull
open Counted
variable [Add K] [Sub K] [Mul K] [Div K] [Neg K] [Zero K] [One K] [BEq K] [LT K] [LE K]
  [DecidableLT K] [DecidableLE K]

/-- polygon.py:978-985: one step per point popped (see `popStack`). -/
def popStackC (p : Vec2 K) : List (Vec2 K) → Counted (List (Vec2 K))
  | v1 :: v0 :: rest =>
    if (v1.x - v0.x)*(p.y - v0.y) - (p.x - v0.x)*(v1.y - v0.y) ≥ 0 then tick 1 (popStackC p (v0 :: rest))
    else ret (v1 :: v0 :: rest)
  | st => ret st

/-- polygon.py:977-987: one step per point pushed, and those for the points popped. -/
def scanC : List (Vec2 K) → List (Vec2 K) → Counted (List (Vec2 K))
  | [], st => ret st
  | p :: ps, st => tick 1 (andThen (popStackC p st) fun st => scanC ps (p :: st))

/-- polygon.py:966-988 `_ahull_sort_points` (see `sortPoints`). -/
def sortPointsC (points : List (Vec2 K)) (p0 p1 : Vec2 K) : Counted (List (Vec2 K)) :=
  let sorted := pySorted (fun a b => decide (lineOrder p0 p1 a < lineOrder p0 p1 b)) points
  tick (sortCharge points.length) (andThen (scanC (sorted ++ [p1]) [p0]) fun st => ret st.tail.reverse)

/-- polygon.py:889-964 `_ahull_partition_points` (see `partitionPoints`): two steps for each of the points (the search
for the furthest, and the split), and those of the two halves. -/
def partitionPointsC (points : List (Vec2 K)) (p0 p1 : Vec2 K) : Counted (Py (List (Vec2 K))) :=
  tick (2 * points.length) (
  match (points.foldl (furthestStep p0 (p1.x - p0.x) (p1.y - p0.y)) (-1, none)).2 with
  | none => ret (.error .nameError)
  | some q =>
    let P := q.copy
    let lr := splitPoints points P p0 p1
    let maxPartition := (points.length - lr.1.length - lr.2.length) * 4
    andThen
      (if lr.1.length ≤ 1 then tick 1 (ret (.ok (p0 :: lr.1)))
      else if _h : lr.1.length ≤ maxPartition ∧ 1 < lr.1.length then partitionPointsC lr.1 p0 P
      else andThen (sortPointsC lr.1 p0 P) fun h => ret (.ok h)) fun h1 =>
    match h1 with
    | .error e => ret (.error e)
    | .ok h1 => andThen
      (if lr.2.length ≤ 1 then tick 1 (ret (.ok (P :: lr.2)))
      else if _h : lr.2.length ≤ maxPartition ∧ 1 < lr.2.length then partitionPointsC lr.2 P p1
      else andThen (sortPointsC lr.2 P p1) fun h => ret (.ok h)) fun h2 =>
      match h2 with
      | .error e => ret (.error e)
      | .ok h2 => ret (.ok (h1 ++ h2)))
termination_by points.length
decreasing_by all_goals (simp +zetaDelta only at *; omega)

/-- polygon.py:845-887 `_adaptive_quick_hull` (see `quickHull`): three steps for each point (the extremes, the side, the
set), and those of the two partitions. -/
def quickHullC (order : List (Vec2 K) → List (Vec2 K)) (points : List (Vec2 K)) : Counted (Py (List (Vec2 K))) :=
  match points with
  | [] => ret (.error .indexError)
  | p :: _ => tick (3 * points.length) (
    let lr := extremes p points
    let leftmost := lr.1
    let rightmost := lr.2
    let w := rightmost.x - leftmost.x
    let h := rightmost.y - leftmost.y
    let isUp (q : Vec2 K) : Bool := w * (q.y - leftmost.y) - (q.x - leftmost.x) * h > 0
    let upper := pySet order (points.filter isUp) [leftmost, rightmost]
    let lower := pySet order (points.filter fun q => !isUp q) [leftmost, rightmost]
    andThen (if upper.isEmpty then ret (.ok [leftmost]) else partitionPointsC upper leftmost rightmost) fun h1 =>
    match h1 with
    | .error e => ret (.error e)
    | .ok h1 => andThen (if lower.isEmpty then ret (.ok [rightmost]) else partitionPointsC lower rightmost leftmost) fun h2 =>
      match h2 with
      | .error e => ret (.error e)
      | .ok h2 => ret (.ok (h1 ++ h2)))

/-- polygon.py:821-842 `Polygon.convex_hull` of a sequence of points (see `convexHull`): the hull, a copy of each of its
vertices, and the polylines of the declared convex polygon. -/
def convexHullC (order : List (Vec2 K) → List (Vec2 K)) (points : List (Vec2 K)) : Counted (Py (Polygon K)) :=
  andThen (quickHullC order points) fun h => match h with
    | .error e => ret (.error e)
    | .ok h => tick (h.length + (Polygon.splitYPolylinesC (h.map Vec2.copy)).steps) (ret (Polygon.new h (some true) none))

end Hull
end Planar
