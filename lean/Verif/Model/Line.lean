import Verif.Model.Affine
/- Model of /repo/planar/line.py: classes _LinearGeometry, Line, Ray and LineSegment.

Mutating methods return the result (or exception) together with the state of the object
afterwards, so that what an exception leaves behind is part of the model. Constructors return
the new object or the exception (a half-built object is never visible to the caller). -/
namespace Planar

variable {K : Type}

/-- line.py:34-68: the attributes `_direction` and `_normal` of _LinearGeometry. -/
structure Lin (K : Type) where
  direction : Vec2 K
  normal : Vec2 K
  deriving Repr

section
variable [PyMath K] [Add K] [Sub K] [Mul K] [Div K] [Neg K] [Zero K] [One K] [BEq K]
  [LT K] [LE K] [DecidableLT K] [DecidableLE K]

namespace Lin

/-- line.py:45-51 the `direction` setter. -/
def setDirection (eps : K) (s : Lin K) (value : Vec2 K) : Py Unit × Lin K :=
  match value.copy.normalized eps with
  | .error e => (.error e, s)
  | .ok direction =>
    if direction.isNull eps then (.error .valueError, s)
    else (.ok (), { s with direction := direction, normal := -direction.perpendicular })

/-- line.py:62-68 the `normal` setter. -/
def setNormal (eps : K) (s : Lin K) (value : Vec2 K) : Py Unit × Lin K :=
  match value.copy.normalized eps with
  | .error e => (.error e, s)
  | .ok normal =>
    if normal.isNull eps then (.error .valueError, s)
    else (.ok (), { s with normal := normal, direction := normal.perpendicular })

/-- A new object whose first attribute access is the `direction` setter. -/
def ofDirection (eps : K) (value : Vec2 K) : Py (Lin K) :=
  match setDirection eps ⟨value, value⟩ value with
  | (.error e, _) => .error e
  | (.ok _, s) => .ok s

/-- A new object whose first attribute access is the `normal` setter. -/
def ofNormal (eps : K) (value : Vec2 K) : Py (Lin K) :=
  match setNormal eps ⟨value, value⟩ value with
  | (.error e, _) => .error e
  | (.ok _, s) => .ok s

end Lin

/-- line.py:94-98 and 263-267: the first point, the first later point different from it and the
remaining points; ValueError if there are none. -/
def firstTwoDistinct (points : List (Vec2 K)) : Py (Vec2 K × Vec2 K × List (Vec2 K)) :=
  match points with
  | [] => .error .valueError
  | p :: ps => go p.copy ps
where
  /-- the `while end == start` loop -/
  go (start : Vec2 K) : List (Vec2 K) → Py (Vec2 K × Vec2 K × List (Vec2 K))
    | [] => .error .valueError
    | q :: qs => if q.copy == start then go start qs else .ok (start, q.copy, qs)

/-- line.py:71-236 Line: direction, normal and `offset`. -/
structure Line (K : Type) extends Lin K where
  offset : K
  deriving Repr

namespace Line

/-- line.py:80-82 `Line(point, direction)`. -/
def new (eps : K) (point direction : Vec2 K) : Py (Line K) := do
  let l ← Lin.ofDirection eps direction
  return { l with offset := point.copy.dot l.normal }

/-- line.py:134-145 `distance_to`. -/
def distanceTo (s : Line K) (point : Vec2 K) : K := point.copy.dot s.normal - s.offset

/-- line.py:147-151 `point_left`. -/
def pointLeft (eps : K) (s : Line K) (point : Vec2 K) : Bool := s.distanceTo point ≤ -eps
/-- line.py:153-157 `point_right`. -/
def pointRight (eps : K) (s : Line K) (point : Vec2 K) : Bool := s.distanceTo point ≥ eps
/-- line.py:159-161 `contains_point`. -/
def containsPoint (eps : K) (s : Line K) (point : Vec2 K) : Bool := pyabs (s.distanceTo point) < eps

/-- line.py:84-105 `Line.from_points`. -/
def fromPoints (eps : K) (points : List (Vec2 K)) : Py (Line K) := do
  let (start, end', rest) ← firstTwoDistinct points
  let l ← Lin.ofDirection eps (end' - start)
  let line : Line K := { l with offset := start.dot l.normal }
  if rest.all (fun p => line.containsPoint eps p) then return line else .error .valueError

/-- line.py:107-121 `Line.from_normal`. -/
def fromNormal (eps : K) (normal : Vec2 K) (offset : K) : Py (Line K) := do
  let l ← Lin.ofNormal eps normal
  return { l with offset := offset * 1 }

/-- line.py:126-132 `points`. -/
def points (s : Line K) : Vec2 K × Vec2 K :=
  let point := s.normal.smul s.offset
  (point, point + s.direction)

/-- line.py:163-170 `parallel`. -/
def parallel (eps : K) (s : Line K) (point : Vec2 K) : Py (Line K) := new eps point s.direction

/-- line.py:172-180 `perpendicular`. -/
def perpendicular (eps : K) (s : Line K) (point : Vec2 K) : Py (Line K) :=
  new eps point s.direction.perpendicular

/-- line.py:182-190 `project`. -/
def project (eps : K) (s : Line K) (point : Vec2 K) : Py (Vec2 K) := do
  let parallel ← s.direction.project eps point
  return parallel + s.normal.smul s.offset

/-- line.py:192-200 `reflect`. -/
def reflect (s : Line K) (point : Vec2 K) : Vec2 K :=
  let point := point.copy
  let offsetDistance := point.dot s.normal - s.offset
  point - (s.normal.smul (1 + 1)).smul offsetDistance

/-- line.py:45-51 assignment to `direction` of a Line. -/
def setDirection (eps : K) (s : Line K) (v : Vec2 K) : Py Unit × Line K :=
  let r := s.toLin.setDirection eps v
  (r.1, { s with toLin := r.2 })
/-- line.py:62-68 assignment to `normal` of a Line. -/
def setNormal (eps : K) (s : Line K) (v : Vec2 K) : Py Unit × Line K :=
  let r := s.toLin.setNormal eps v
  (r.1, { s with toLin := r.2 })
/-- line.py:123: `offset` is a plain attribute. -/
def setOffset (s : Line K) (o : K) : Line K := { s with offset := o }

/-- line.py:202-210 `__imul__` with a transform. -/
def imul (eps : K) (s : Line K) (T : Affine K) : Py Unit × Line K :=
  let p1 := T.apply s.points.1
  let p2 := T.apply s.points.2
  match s.setDirection eps (p2 - p1) with
  | (.error e, s) => (.error e, s)
  | (.ok _, s) => (.ok (), { s with offset := p1.dot s.normal })

/-- transform.py:260-267: `T * line`. -/
def transformed (eps : K) (s : Line K) (T : Affine K) : Py (Line K) :=
  fromPoints eps (T.applyPts [s.points.1, s.points.2])

/-- line.py:212-215 `__eq__` between lines. -/
instance : BEq (Line K) := ⟨fun s o => s.offset == o.offset && s.direction == o.direction⟩

/-- line.py:220-226 `almost_equals`. -/
def almostEquals (eps : K) (s o : Line K) : Bool :=
  pyabs (s.offset - o.offset) < eps && s.direction.almostEquals eps o.direction

/-- line.py:233-236: the constructor arguments printed by `repr`. -/
def reprArgs (eps : K) (s : Line K) : Py (Vec2 K × Vec2 K) := do
  let p ← s.project eps ⟨0, 0⟩
  return (p, s.direction)

end Line

/-- line.py:239-390 Ray: direction, normal and `_anchor`. -/
structure Ray (K : Type) extends Lin K where
  anchor : Vec2 K
  deriving Repr

namespace Ray

/-- line.py:248-250 `Ray(anchor, direction)`; the anchor is copied once more by its setter
(289-291). -/
def new (eps : K) (anchor direction : Vec2 K) : Py (Ray K) := do
  let a := anchor.copy.copy
  let l ← Lin.ofDirection eps direction
  return { l with anchor := a }

/-- line.py:301-309 `distance_to`. -/
def distanceTo (s : Ray K) (point : Vec2 K) : K :=
  let toPoint := point.copy - s.anchor
  if s.direction.dot toPoint ≥ 0 then pyabs (toPoint.dot s.normal) else toPoint.length

/-- line.py:311-313 `contains_point`. -/
def containsPoint (eps : K) (s : Ray K) (point : Vec2 K) : Bool := s.distanceTo point < eps

/-- line.py:315-322 `point_behind`. -/
def pointBehind (eps : K) (s : Ray K) (point : Vec2 K) : Bool :=
  s.direction.dot (point.copy - s.anchor) ≤ -eps

/-- line.py:324-330 `point_left`. -/
def pointLeft (eps : K) (s : Ray K) (point : Vec2 K) : Bool :=
  s.direction.dot (point.copy - s.anchor) > -eps && s.normal.dot (point.copy - s.anchor) ≤ -eps

/-- line.py:332-338 `point_right`. -/
def pointRight (eps : K) (s : Ray K) (point : Vec2 K) : Bool :=
  s.direction.dot (point.copy - s.anchor) > -eps && s.normal.dot (point.copy - s.anchor) ≥ eps

/-- line.py:340-354 `project`. -/
def project (eps : K) (s : Ray K) (point : Vec2 K) : Py (Vec2 K) := do
  let toPoint := point.copy - s.anchor
  let parallel ← s.direction.project eps toPoint
  if parallel.dot s.direction > -eps then return parallel + s.anchor
  else return s.anchor

/-- line.py:252-274 `Ray.from_points`. -/
def fromPoints (eps : K) (points : List (Vec2 K)) : Py (Ray K) := do
  let (start, end', rest) ← firstTwoDistinct points
  let l ← Lin.ofDirection eps (end' - start)
  let ray : Ray K := { l with anchor := start.copy }
  if rest.all (fun p => ray.containsPoint eps p) then return ray else .error .valueError

/-- line.py:276-282 `points`. -/
def points (s : Ray K) : Vec2 K × Vec2 K := (s.anchor, s.anchor + s.direction)

/-- line.py:296-299 `line`. -/
def line (eps : K) (s : Ray K) : Py (Line K) := Line.new eps s.anchor s.direction

/-- line.py:45-51 assignment to `direction` of a Ray. -/
def setDirection (eps : K) (s : Ray K) (v : Vec2 K) : Py Unit × Ray K :=
  let r := s.toLin.setDirection eps v
  (r.1, { s with toLin := r.2 })
/-- line.py:62-68 assignment to `normal` of a Ray. -/
def setNormal (eps : K) (s : Ray K) (v : Vec2 K) : Py Unit × Ray K :=
  let r := s.toLin.setNormal eps v
  (r.1, { s with toLin := r.2 })
/-- line.py:289-294 assignment to `anchor` (alias `start`) of a Ray. -/
def setAnchor (s : Ray K) (v : Vec2 K) : Ray K := { s with anchor := v.copy }

/-- line.py:356-364 `__imul__` with a transform. -/
def imul (eps : K) (s : Ray K) (T : Affine K) : Py Unit × Ray K :=
  let p1 := T.apply s.points.1
  let p2 := T.apply s.points.2
  match s.setDirection eps (p2 - p1) with
  | (.error e, s) => (.error e, s)
  | (.ok _, s) => (.ok (), s.setAnchor p1)

/-- transform.py:260-267: `T * ray`. -/
def transformed (eps : K) (s : Ray K) (T : Affine K) : Py (Ray K) :=
  fromPoints eps (T.applyPts [s.points.1, s.points.2])

/-- line.py:366-369 `__eq__` between rays. -/
instance : BEq (Ray K) := ⟨fun s o => s.anchor == o.anchor && s.direction == o.direction⟩

/-- line.py:374-380 `almost_equals`. -/
def almostEquals (eps : K) (s o : Ray K) : Bool :=
  s.anchor.almostEquals eps o.anchor && s.direction.almostEquals eps o.direction

/-- line.py:387-390: the constructor arguments printed by `repr`. -/
def reprArgs (s : Ray K) : Vec2 K × Vec2 K := (s.anchor, s.direction)

end Ray

/-- line.py:393-633 LineSegment: direction, normal, `_anchor` and `length`. -/
structure LineSegment (K : Type) extends Lin K where
  anchor : Vec2 K
  length : K
  deriving Repr

namespace LineSegment

/-- line.py:498-506 the `vector` setter. -/
def setVector (eps : K) (s : LineSegment K) (value : Vec2 K) : Py Unit × LineSegment K :=
  let vector := value.copy
  let length := vector.length
  let r := if length != 0 then s.toLin.setDirection eps vector else s.toLin.setDirection eps ⟨1, 0⟩
  match r.1 with
  | .error e => (.error e, { s with toLin := r.2 })
  | .ok _ => (.ok (), { s with toLin := r.2, length := vector.length })

/-- line.py:402-404 `LineSegment(anchor, vector)`. `length` starts as the class attribute 0.0
(line.py:471). -/
def new (eps : K) (anchor vector : Vec2 K) : Py (LineSegment K) :=
  match setVector eps ⟨⟨vector, vector⟩, anchor, 0⟩ vector with
  | (.error e, _) => .error e
  | (.ok _, s) => .ok { s with anchor := anchor.copy }

/-- line.py:508-511 `end`. -/
def end' (s : LineSegment K) : Vec2 K := s.anchor + s.direction.smul s.length

/-- line.py:491-496 `vector`. -/
def vector (s : LineSegment K) : Vec2 K := s.direction.smul s.length

/-- line.py:474-477 `points`. -/
def points (s : LineSegment K) : Vec2 K × Vec2 K :=
  (s.anchor, s.anchor + s.direction.smul s.length)

/-- line.py:518-521 `mid`; 0.5 is `1 / (1 + 1)`. -/
def mid (s : LineSegment K) : Vec2 K := s.anchor + s.direction.smul (s.length * (1 / (1 + 1)))

/-- line.py:528-541 `distance_to`. -/
def distanceTo (s : LineSegment K) (point : Vec2 K) : K :=
  let point := point.copy
  let toPoint := point - s.anchor
  let along := s.direction.dot toPoint
  if along < 0 then toPoint.length
  else if along > s.length then (point - s.end').length
  else pyabs (toPoint.dot s.normal)

/-- line.py:543-545 `contains_point`. -/
def containsPoint (eps : K) (s : LineSegment K) (point : Vec2 K) : Bool := s.distanceTo point < eps

/-- line.py:422-428: the loop of `from_points`: the end so far, its squared distance. -/
def furthestLoop (start : Vec2 K) : List (Vec2 K) → K → Vec2 K → Vec2 K
  | [], _, end' => end'
  | p :: ps, furthest, end' =>
    let p := p.copy
    let dist := (p - start).length2
    if dist > furthest then furthestLoop start ps dist p else furthestLoop start ps furthest end'

/-- line.py:406-440 `LineSegment.from_points`. -/
def fromPoints (eps : K) (points : List (Vec2 K)) : Py (LineSegment K) :=
  match points with
  | [] => .error .valueError
  | p0 :: ps =>
    let start := p0.copy
    let end' := furthestLoop start ps 0 start
    let r := if end' != start then setVector eps ⟨⟨start, start⟩, start, 0⟩ (end' - start)
      else
        let r := Lin.setDirection eps ⟨start, start⟩ ⟨1, 0⟩
        (r.1, ⟨r.2, start, 0⟩)
    match r with
    | (.error e, _) => .error e
    | (.ok _, s) =>
      let segment : LineSegment K := { s with anchor := start }
      if (ps.map Vec2.copy).all (fun p => segment.containsPoint eps p) then .ok segment
      else .error .valueError

/-- line.py:442-469 `LineSegment.from_normal`. -/
def fromNormal (eps : K) (normal : Vec2 K) (offset startDistance endDistance : K) :
    Py (LineSegment K) := do
  let l ← Lin.ofNormal eps normal
  let startDistance := startDistance * 1
  return { l with
    anchor := l.normal.smul offset + l.direction.smul startDistance
    length := endDistance - startDistance }

/-- line.py:45-51 assignment to `direction` of a LineSegment. -/
def setDirection (eps : K) (s : LineSegment K) (v : Vec2 K) : Py Unit × LineSegment K :=
  let r := s.toLin.setDirection eps v
  (r.1, { s with toLin := r.2 })
/-- line.py:62-68 assignment to `normal` of a LineSegment. -/
def setNormal (eps : K) (s : LineSegment K) (v : Vec2 K) : Py Unit × LineSegment K :=
  let r := s.toLin.setNormal eps v
  (r.1, { s with toLin := r.2 })
/-- line.py:484-489 assignment to `anchor` (alias `start`) of a LineSegment. -/
def setAnchor (s : LineSegment K) (v : Vec2 K) : LineSegment K := { s with anchor := v.copy }
/-- line.py:471: `length` is a plain attribute. -/
def setLength (s : LineSegment K) (l : K) : LineSegment K := { s with length := l }
/-- line.py:513-516 the `end` setter. -/
def setEnd (eps : K) (s : LineSegment K) (value : Vec2 K) : Py Unit × LineSegment K :=
  s.setVector eps (value.copy - s.anchor)

/-- line.py:523-526 `line`. -/
def line (eps : K) (s : LineSegment K) : Py (Line K) := Line.new eps s.anchor s.direction

/-- line.py:547-552 `point_ahead`. -/
def pointAhead (eps : K) (s : LineSegment K) (point : Vec2 K) : Bool :=
  s.direction.dot (point.copy - s.anchor) ≥ s.length + eps

/-- line.py:554-559 `point_behind`. -/
def pointBehind (eps : K) (s : LineSegment K) (point : Vec2 K) : Bool :=
  s.direction.dot (point.copy - s.anchor) ≤ -eps

/-- line.py:561-568 `point_left`. -/
def pointLeft (eps : K) (s : LineSegment K) (point : Vec2 K) : Bool :=
  let toPoint := point.copy - s.anchor
  let along := s.direction.dot toPoint
  (s.length + eps > along && along > -eps) && s.normal.dot toPoint ≤ -eps

/-- line.py:570-577 `point_right`. -/
def pointRight (eps : K) (s : LineSegment K) (point : Vec2 K) : Bool :=
  let toPoint := point.copy - s.anchor
  let along := s.direction.dot toPoint
  (s.length + eps > along && along > -eps) && s.normal.dot toPoint ≥ eps

/-- line.py:579-597 `project`. -/
def project (eps : K) (s : LineSegment K) (point : Vec2 K) : Py (Vec2 K) := do
  let toPoint := point.copy - s.anchor
  let parallel ← s.direction.project eps toPoint
  let along := parallel.dot s.direction
  if along ≤ -eps then return s.anchor
  else if along ≥ s.length + eps then return s.end'
  else return parallel + s.anchor

/-- line.py:599-607 `__imul__` with a transform. -/
def imul (eps : K) (s : LineSegment K) (T : Affine K) : Py Unit × LineSegment K :=
  let p1 := T.apply s.points.1
  let p2 := T.apply s.points.2
  match s.setVector eps (p2 - p1) with
  | (.error e, s) => (.error e, s)
  | (.ok _, s) => (.ok (), { s with anchor := p1 })

/-- transform.py:260-267: `T * segment`. -/
def transformed (eps : K) (s : LineSegment K) (T : Affine K) : Py (LineSegment K) :=
  fromPoints eps (T.applyPts [s.points.1, s.points.2])

/-- line.py:609-612 `__eq__` between segments. -/
instance : BEq (LineSegment K) := ⟨fun s o => s.anchor == o.anchor && s.vector == o.vector⟩

/-- line.py:617-623 `almost_equals`. -/
def almostEquals (eps : K) (s o : LineSegment K) : Bool :=
  s.anchor.almostEquals eps o.anchor && s.vector.almostEquals eps o.vector

/-- line.py:630-633: the constructor arguments printed by `repr`. -/
def reprArgs (s : LineSegment K) : Vec2 K × Vec2 K := (s.anchor, s.vector)

end LineSegment
end
end Planar
