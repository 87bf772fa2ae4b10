import Verif.Model.Threads
import Verif.Model.Line
import Verif.Model.Seq
/- The assigning operations of polygons, arrays and lines as sequences of atomic accesses (see Model/Threads), so that they
can be stopped at any point by an exception such as KeyboardInterrupt. Nothing else runs: an attribute that the operation
does not write is the same whenever it is read, so that several reads in a row are modelled as one access. -/
namespace Planar
variable {K : Type}

namespace Thread
variable {σ α : Type}

/-- The object when the operation is stopped before its access number `k` (counting from 0), or after its end if it makes at
most `k` accesses. -/
def stopped : Thread σ α → Nat → σ → σ
  | .done _, _, s => s
  | .act _ _, 0, s => s
  | .act w n, k + 1, s => (n s).stopped k (w s)

/-- `for i in range(start, start + count): f(i)`. -/
def each (f : Nat → Thread σ Unit) : Nat → Nat → Thread σ Unit
  | _, 0 => .done ()
  | i, n + 1 => (f i).bind fun _ => each f (i + 1) n

end Thread

namespace Mutate

/-- polygon.py:180-196 `_clear_cached_properties`, one assignment after the other (194-195: a chained assignment stores from
left to right). -/
def clear : Thread (Polygon K) Unit := do
  let n ← .read fun s => s.verts.length
  if n > 3 then
    .write fun s => { s with convex := none }
    .write fun s => { s with simple := none }
  else
    .write fun s => { s with convex := some true }
    .write fun s => { s with simple := some true }
    .write fun s => { s with triTest := none }
  .write fun s => { s with yPolylines := none }
  .write fun s => { s with dupeVerts := none }
  .write fun s => { s with degenerate := none }
  .write fun s => { s with bbox := none }
  .write fun s => { s with centroid := none }
  .write fun s => { s with maxR := none }
  .write fun s => { s with maxR2 := none }
  .write fun s => { s with minR := none }
  .write fun s => { s with minR2 := none }

/-- polygon.py:437-439 `poly[i] = v`: the list item (vector.py:497-498), then the caches. -/
def setItem [Mul K] [One K] (i : Int) (v : Vec2 K) : Thread (Polygon K) (Py Unit) :=
  .act (fun s => match pySet s.verts i v.copy with
    | .ok vs => { s with verts := vs }
    | .error _ => s) fun s => match pySet s.verts i v.copy with
      | .ok _ => clear.bind fun _ => .done (.ok ())
      | .error e => .done (.error e)

/-- transform.py:300-301: one turn of the loop, on a polygon. -/
def imulTurn [Add K] [Mul K] [One K] (T : Affine K) (i : Nat) : Thread (Polygon K) Unit := do
  let v ← .read fun s => s.verts[i]?
  match v with
  | none => pure ()
  | some v =>
    let w := Vec2.mk' (v.x*T.a + v.y*T.d + T.c) (v.x*T.b + v.y*T.e + T.f)
    .write fun s => { s with verts := s.verts.set i w.copy }
    clear

/-- polygon.py:515-522 `poly *= T`. -/
def imul [Add K] [Mul K] [Zero K] [One K] [BEq K] (T : Affine K) : Thread (Polygon K) Unit := do
  let n ← .read fun s => s.verts.length
  if T != Affine.identity then Thread.each (imulTurn T) 0 n
  clear

/-- transform.py:300-301: one turn of the loop, on a Seq2 or Vec2Array. -/
def seqTurn [Add K] [Mul K] [One K] (T : Affine K) (i : Nat) : Thread (Vecs K) Unit := do
  let v ← .read fun s => s[i]?
  match v with
  | none => pure ()
  | some v => .write fun s => s.set i (Vec2.mk' (v.x*T.a + v.y*T.d + T.c) (v.x*T.b + v.y*T.e + T.f))

/-- transform.py:290-301 `itransform`, and vector.py:503-509, 789-791 `seq *= T`, on a Seq2 or Vec2Array. -/
def itransform [Add K] [Mul K] [Zero K] [One K] [BEq K] (T : Affine K) : Thread (Vecs K) Unit := do
  let n ← .read List.length
  if T != Affine.identity then Thread.each (seqTurn T) 0 n

/-- vector.py:622, 655-656 and the operators 683-929: a list is computed from `self._vectors` and then stored in one
assignment. -/
def replace (f : Vecs K → Py (Vecs K)) : Thread (Vecs K) (Py Unit) := do
  let s ← .read id
  match f s with
  | .error e => pure (.error e)
  | .ok s' =>
    .write fun _ => s'
    pure (.ok ())

/-- vector.py:567-572 `extend`: items are appended one by one. -/
def extend [Mul K] [One K] : List (List K) → Thread (Vecs K) (Py Unit)
  | [] => .done (.ok ())
  | v :: vs => match Vec2Array.ofSeq v with
    | .error e => .done (.error e)
    | .ok w => (Thread.write fun s => s ++ [w]).bind fun _ => extend vs

section
variable [PyMath K] [Add K] [Sub K] [Mul K] [Div K] [Neg K] [Zero K] [One K] [BEq K]
  [LT K] [LE K] [DecidableLT K] [DecidableLE K]

/-- line.py:45-51 the `direction` setter of an object whose frame `put` changes. -/
def direction {σ : Type} (put : (Lin K → Lin K) → σ → σ) (eps : K) (value : Vec2 K) : Thread σ (Py Unit) :=
  match value.copy.normalized eps with
  | .error e => .done (.error e)
  | .ok d =>
    if d.isNull eps then .done (.error .valueError)
    else do
      .write (put fun l => { l with direction := d })
      .write (put fun l => { l with normal := -d.perpendicular })
      pure (.ok ())

/-- line.py:62-68 the `normal` setter. -/
def normal {σ : Type} (put : (Lin K → Lin K) → σ → σ) (eps : K) (value : Vec2 K) : Thread σ (Py Unit) :=
  match value.copy.normalized eps with
  | .error e => .done (.error e)
  | .ok n =>
    if n.isNull eps then .done (.error .valueError)
    else do
      .write (put fun l => { l with normal := n })
      .write (put fun l => { l with direction := n.perpendicular })
      pure (.ok ())

/-- Attributes of a line (line.py:71-236). -/
def putLine (f : Lin K → Lin K) (s : Line K) : Line K := { s with toLin := f s.toLin }
/-- Attributes of a ray (line.py:239-390). -/
def putRay (f : Lin K → Lin K) (s : Ray K) : Ray K := { s with toLin := f s.toLin }
/-- Attributes of a segment (line.py:393-633). -/
def putSeg (f : Lin K → Lin K) (s : LineSegment K) : LineSegment K := { s with toLin := f s.toLin }

/-- line.py:202-210 `line *= T`. -/
def lineImul (eps : K) (T : Affine K) : Thread (Line K) (Py Unit) := do
  let p ← .read Line.points
  let p1 := T.apply p.1
  let p2 := T.apply p.2
  match (← direction putLine eps (p2 - p1)) with
  | .error e => pure (.error e)
  | .ok _ =>
    let n ← .read fun s => s.normal
    .write fun s => { s with offset := p1.dot n }
    pure (.ok ())

/-- line.py:356-364 `ray *= T`. -/
def rayImul (eps : K) (T : Affine K) : Thread (Ray K) (Py Unit) := do
  let p ← .read Ray.points
  let p1 := T.apply p.1
  let p2 := T.apply p.2
  match (← direction putRay eps (p2 - p1)) with
  | .error e => pure (.error e)
  | .ok _ =>
    .write fun s => { s with anchor := p1.copy }
    pure (.ok ())

/-- line.py:498-506 the `vector` setter of a segment. -/
def vector (eps : K) (value : Vec2 K) : Thread (LineSegment K) (Py Unit) := do
  let vector := value.copy
  match (← if vector.length != 0 then direction putSeg eps vector else direction putSeg eps ⟨1, 0⟩) with
  | .error e => pure (.error e)
  | .ok _ =>
    .write fun s => { s with length := vector.length }
    pure (.ok ())

/-- line.py:513-516 the `end` setter of a segment. -/
def end' (eps : K) (value : Vec2 K) : Thread (LineSegment K) (Py Unit) := do
  let a ← .read fun s => s.anchor
  vector eps (value.copy - a)

/-- line.py:599-607 `segment *= T`. -/
def segImul (eps : K) (T : Affine K) : Thread (LineSegment K) (Py Unit) := do
  let p ← .read LineSegment.points
  let p1 := T.apply p.1
  let p2 := T.apply p.2
  match (← vector eps (p2 - p1)) with
  | .error e => pure (.error e)
  | .ok _ =>
    .write fun s => { s with anchor := p1 }
    pure (.ok ())

end
end Mutate
end Planar
