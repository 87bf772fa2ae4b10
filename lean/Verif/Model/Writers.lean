import Verif.Model.Mutate
/- Assignments to a polygon by several threads at once. In contrast to Model/Mutate other threads may do something between
any two accesses, so that every access that matters is a step of its own: line 187 looks for the cached closure and line 189
deletes it, which raises KeyError if another thread has deleted it in between. -/
namespace Planar
variable {K : Type}

/-- An assignment to a polygon. -/
inductive WriteOp (K : Type) where
  | setItem (i : Int) (v : Vec2 K)
  | imul (T : Affine K)

/-- How an assignment ends: normally or with an exception. -/
inductive WriteAns where
  | ok
  | indexError
  | keyError
deriving DecidableEq

namespace Writers

/-- polygon.py:190-196, the second half of `_clear_cached_properties`. -/
def clearRest : Thread (Polygon K) WriteAns :=
  (Thread.write fun s => { s with yPolylines := none }).bind fun _ =>
  (Thread.write fun s => { s with dupeVerts := none }).bind fun _ =>
  (Thread.write fun s => { s with degenerate := none }).bind fun _ =>
  (Thread.write fun s => { s with bbox := none }).bind fun _ =>
  (Thread.write fun s => { s with centroid := none }).bind fun _ =>
  (Thread.write fun s => { s with maxR := none }).bind fun _ =>
  (Thread.write fun s => { s with maxR2 := none }).bind fun _ =>
  (Thread.write fun s => { s with minR := none }).bind fun _ =>
  (Thread.write fun s => { s with minR2 := none }).bind fun _ => .done .ok

/-- polygon.py:187-189: `if '_pnp_triangle_test' in self.__dict__: del self.__dict__['_pnp_triangle_test']`. -/
def deleteClosure (rest : Thread (Polygon K) WriteAns) : Thread (Polygon K) WriteAns :=
  (Thread.read fun s => s.triTest.isSome).bind fun found =>
  if found then
    .act (fun s => { s with triTest := none }) fun s => if s.triTest.isSome then rest else .done .keyError
  else rest

/-- polygon.py:180-196 `_clear_cached_properties`. -/
def clear : Thread (Polygon K) WriteAns :=
  (Thread.read fun s => s.verts.length).bind fun n =>
  if n > 3 then
    (Thread.write fun s => { s with convex := none }).bind fun _ =>
    (Thread.write fun s => { s with simple := none }).bind fun _ => clearRest
  else
    (Thread.write fun s => { s with convex := some true }).bind fun _ =>
    (Thread.write fun s => { s with simple := some true }).bind fun _ => deleteClosure clearRest

/-- polygon.py:437-439 `poly[i] = v`. -/
def setItem [Mul K] [One K] (i : Int) (v : Vec2 K) : Thread (Polygon K) WriteAns :=
  .act (fun s => match pySet s.verts i v.copy with
    | .ok vs => { s with verts := vs }
    | .error _ => s) fun s => match pySet s.verts i v.copy with
      | .ok _ => clear
      | .error _ => .done .indexError

/-- transform.py:300-301 with `count` vertices left: the loop reads vertex `i`, then assigns to it (polygon.py:437-439);
an exception ends the loop. (`x` and `y` come from the vertex object, which cannot change.) -/
def loop [Add K] [Mul K] [One K] (T : Affine K) : Nat → Nat → Thread (Polygon K) WriteAns
  | _, 0 => .done .ok
  | i, count + 1 => (Thread.read fun s => s.verts[i]?).bind fun v => match v with
    | none => .done .ok
    | some v =>
      (setItem i (Vec2.mk' (v.x*T.a + v.y*T.d + T.c) (v.x*T.b + v.y*T.e + T.f))).bind fun r =>
      if r = .ok then loop T (i + 1) count else .done r

/-- polygon.py:515-522 `poly *= T`. (The number of vertices never changes; it is read once.) -/
def imul [Add K] [Mul K] [Zero K] [One K] [BEq K] (T : Affine K) : Thread (Polygon K) WriteAns :=
  (Thread.read fun s => s.verts.length).bind fun n =>
  (if T != Affine.identity then loop T 0 n else .done .ok).bind fun r =>
  if r = .ok then clear else .done r

end Writers

/-- The thread that makes the assignment. -/
def WriteOp.thread [Add K] [Mul K] [Zero K] [One K] [BEq K] : WriteOp K → Thread (Polygon K) WriteAns
  | .setItem i v => Writers.setItem i v
  | .imul T => Writers.imul T

/-- Threads that each make one assignment to the same polygon. -/
def startWrites [Add K] [Mul K] [Zero K] [One K] [BEq K] (s : Polygon K) (ops : List (WriteOp K)) :
    System (Polygon K) WriteAns := ⟨s, ops.map WriteOp.thread⟩

namespace Shared

/-- New attributes of a polygon object in memory: the reference to the polylines is kept or set to None. -/
def put (s : Shared K) (o : Polygon K) : Shared K :=
  { s with obj := o, refs := if o.yPolylines.isSome then s.refs else none }

end Shared

/-- A thread that assigns to a polygon, beside threads that read it. -/
def Thread.onShared {α β : Type} (g : α → β) : Thread (Polygon K) α → Thread (Shared K) β
  | .done a => .done (g a)
  | .act w n => .act (fun s => s.put (w s.view)) fun s => (n s.view).onShared g

/-- Threads that each make one reading operation, and threads that each make one assignment, on the same polygon. (Reading
operations go through the vertices in one access, as in Model/Threads; really other threads can change vertices
meanwhile.) -/
def startBoth [Add K] [Sub K] [Mul K] [Div K] [Zero K] [One K] [BEq K] [LT K] [LE K] [DecidableLT K] [DecidableLE K]
    (eps : K) (s : Polygon K) (reads : List (ReadOp K)) (writes : List (WriteOp K)) :
    System (Shared K) (ReadAns K ⊕ WriteAns) :=
  ⟨Shared.of s, reads.map (fun o => (o.thread eps).bind fun a => .done (.inl a)) ++
    writes.map fun o => o.thread.onShared .inr⟩

/-- Operations of an array that use its list once (vector.py:548-585). -/
inductive ArrayOp (K : Type) where
  | getItem (i : Int)
  | getSlice (start stop : Option Int) (step : Int)
  | setItem (i : Int) (v : List K)
  | setSlice (start stop : Option Int) (step : Int) (vs : List (List K))
  | append (v : List K)
  | insert (i : Int) (v : List K)
  | delItem (i : Int)
  | delSlice (start stop : Option Int) (step : Int)

/-- What they return. -/
inductive ArrayAns (K : Type) where
  | none (r : Py Unit)
  | item (r : Py (Vec2 K))
  | array (r : Py (Vecs K))

/-- The operation on an array that nobody else uses. -/
def ArrayOp.run [Mul K] [One K] (op : ArrayOp K) (s : Vecs K) : ArrayAns K × Vecs K :=
  match op with
  | .getItem i => (.item (Vec2Array.getItem s i), s)
  | .getSlice a b c => (.array (Vec2Array.getSlice s a b c), s)
  | .setItem i v => (.none (Vec2Array.setItemRaw s i v).1, (Vec2Array.setItemRaw s i v).2)
  | .setSlice a b c vs => (.none (Vec2Array.setSliceRaw s a b c vs).1, (Vec2Array.setSliceRaw s a b c vs).2)
  | .append v => (.none (Vec2Array.appendRaw s v).1, (Vec2Array.appendRaw s v).2)
  | .insert i v => (.none (Vec2Array.insertRaw s i v).1, (Vec2Array.insertRaw s i v).2)
  | .delItem i => (.none (Vec2Array.delItem s i).1, (Vec2Array.delItem s i).2)
  | .delSlice a b c => (.none (Vec2Array.delSlice s a b c).1, (Vec2Array.delSlice s a b c).2)

/-- vector.py:548-585: the vectors are made first, from the arguments alone; then one operation of the list does the rest,
which CPython does not interrupt. -/
def ArrayOp.thread [Mul K] [One K] (op : ArrayOp K) : Thread (Vecs K) (ArrayAns K) :=
  .act (fun s => (op.run s).2) fun s => .done (op.run s).1

end Planar
