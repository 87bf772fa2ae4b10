import Verif.Model.Polygon
/- The adaptive quick hull, /repo/planar/polygon.py:821-988.

Points are `Vec2` objects (plain tuples make line 912 raise TypeError). The iteration order of a
Python set is a parameter `order`: any function that permutes a list. -/
namespace Planar.Hull
variable {K : Type} [Add K] [Sub K] [Mul K] [Div K] [Neg K] [Zero K] [One K] [BEq K] [LT K] [LE K]
  [DecidableLT K] [DecidableLE K]

/-- polygon.py:972: the sort key of `_ahull_sort_points`, lines 968-971. -/
def lineOrder (p0 p1 pt : Vec2 K) : K :=
  let d := p1 - p0
  d.x * (pt.x - p0.x) + d.y * (pt.y - p0.y)

/-- polygon.py:978-985: pop the stack (top first) while the last turn is not clockwise. -/
def popStack (p : Vec2 K) : List (Vec2 K) → List (Vec2 K)
  | v1 :: v0 :: rest =>
    if (v1.x - v0.x)*(p.y - v0.y) - (p.x - v0.x)*(v1.y - v0.y) ≥ 0 then popStack p (v0 :: rest)
    else v1 :: v0 :: rest
  | st => st

/-- polygon.py:966-988 `_ahull_sort_points`: the points appended to the hull. The stack is kept top
first; `points.sort(key=...)` is a stable sort. -/
def sortPoints (points : List (Vec2 K)) (p0 p1 : Vec2 K) : List (Vec2 K) :=
  let sorted := pySorted (fun a b => decide (lineOrder p0 p1 a < lineOrder p0 p1 b)) points
  let stack := (sorted ++ [p1]).foldl (fun st p => p :: popStack p st) [p0]
  stack.tail.reverse

/-- polygon.py:897-901: one step of the search for the furthest point. -/
def furthestStep (p0 : Vec2 K) (dx dy : K) (acc : K × Option (Vec2 K)) (p : Vec2 K) :
    K × Option (Vec2 K) :=
  let dist := dx * (p.y - p0.y) - (p.x - p0.x) * dy
  if dist > acc.1 then (dist, some p) else acc

/-- polygon.py:908-935: the points left and right of the triangle `P, p0, p1`. -/
def splitPoints (points : List (Vec2 K)) (P p0 p1 : Vec2 K) : List (Vec2 K) × List (Vec2 K) :=
  let v0 := p0 - P
  let v1 := p1 - P
  let dot00 := v0.length2
  let dot01 := v0.dot v1
  let dot11 := v1.length2
  let denom := dot00 * dot11 - dot01 * dot01
  if denom == 0 then ([], [])
  else
    let inv := 1 / denom
    let uOf (p : Vec2 K) : K := (dot11 * v0.dot (p - P) - dot01 * v1.dot (p - P)) * inv
    let vOf (p : Vec2 K) : K := (dot00 * v1.dot (p - P) - dot01 * v0.dot (p - P)) * inv
    (points.filter fun p => decide (vOf p < 0),
     points.filter fun p => !(decide (vOf p < 0)) && decide (uOf p < 0))

/-- polygon.py:889-964 `_ahull_partition_points`: the points appended to the hull. -/
def partitionPoints (points : List (Vec2 K)) (p0 p1 : Vec2 K) : Py (List (Vec2 K)) :=
  match (points.foldl (furthestStep p0 (p1.x - p0.x) (p1.y - p0.y)) (-1, none)).2 with
  | none => .error .nameError
  | some q => do
    let P := q.copy
    let lr := splitPoints points P p0 p1
    let maxPartition := (points.length - lr.1.length - lr.2.length) * 4
    let h1 ←
      if lr.1.length ≤ 1 then .ok (p0 :: lr.1)
      else if _h : lr.1.length ≤ maxPartition ∧ 1 < lr.1.length then partitionPoints lr.1 p0 P
      else .ok (sortPoints lr.1 p0 P)
    let h2 ←
      if lr.2.length ≤ 1 then .ok (P :: lr.2)
      else if _h : lr.2.length ≤ maxPartition ∧ 1 < lr.2.length then partitionPoints lr.2 P p1
      else .ok (sortPoints lr.2 P p1)
    return h1 ++ h2
termination_by points.length
decreasing_by all_goals (simp +zetaDelta only at *; omega)

/-- polygon.py:856-861: leftmost and rightmost point. -/
def extremes (p : Vec2 K) (points : List (Vec2 K)) : Vec2 K × Vec2 K :=
  points.foldl (fun acc q =>
    if q.x < acc.1.x then (q, acc.2) else if q.x > acc.2.x then (acc.1, q) else acc) (p, p)

/-- A Python set of the given points with `discard`ed items removed, iterated in the order chosen by
`order`. -/
def pySet (order : List (Vec2 K) → List (Vec2 K)) (ps : List (Vec2 K)) (drop : List (Vec2 K)) :
    List (Vec2 K) :=
  order (ps.eraseDups.filter fun p => !drop.contains p)

/-- polygon.py:845-887 `_adaptive_quick_hull`; no points is an IndexError (`points[0]`). -/
def quickHull (order : List (Vec2 K) → List (Vec2 K)) (points : List (Vec2 K)) :
    Py (List (Vec2 K)) :=
  match points with
  | [] => .error .indexError
  | p :: _ => do
    let lr := extremes p points
    let leftmost := lr.1
    let rightmost := lr.2
    let w := rightmost.x - leftmost.x
    let h := rightmost.y - leftmost.y
    let isUp (q : Vec2 K) : Bool := w * (q.y - leftmost.y) - (q.x - leftmost.x) * h > 0
    let upper := pySet order (points.filter isUp) [leftmost, rightmost]
    let lower := pySet order (points.filter fun q => !isUp q) [leftmost, rightmost]
    let h1 ← if upper.isEmpty then .ok [leftmost] else partitionPoints upper leftmost rightmost
    let h2 ← if lower.isEmpty then .ok [rightmost] else partitionPoints lower rightmost leftmost
    return h1 ++ h2

/-- polygon.py:821-842 `Polygon.convex_hull` of a sequence of points. -/
def convexHull (order : List (Vec2 K) → List (Vec2 K)) (points : List (Vec2 K)) : Py (Polygon K) := do
  let h ← quickHull order points
  Polygon.new h (some true) none

/-- polygon.py:839-842 `Polygon.convex_hull` of a polygon. -/
def convexHullPoly (order : List (Vec2 K) → List (Vec2 K)) (s : Polygon K) : Py (Polygon K) :=
  if s.convex == some true then .ok s.copy else convexHull order s.verts

end Planar.Hull
