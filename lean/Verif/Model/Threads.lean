import Verif.Model.History
import Verif.Model.Cache
/- The reading operations of polygons and transforms as sequences of atomic accesses to a shared object, so that several
threads can be interleaved and a thread can be stopped at any point.

An atomic access reads or writes one attribute of the object (or one list object). CPython switches threads, and delivers
exceptions such as KeyboardInterrupt, between bytecode instructions; each attribute access is a separate instruction. Nobody
assigns to vertices here: the vertices are read in one access. Local computations are not steps of their own. -/
namespace Planar

/-- A thread that will return `α`: finished, or about to make an atomic access to the shared state `σ`. `next` sees the
state before the write. -/
inductive Thread (σ α : Type) where
  | done (a : α)
  | act (write : σ → σ) (next : σ → Thread σ α)

namespace Thread
variable {σ α β : Type}

/-- One thread program after another. -/
def bind : Thread σ α → (α → Thread σ β) → Thread σ β
  | .done a, k => k a
  | .act w n, k => .act w fun s => (n s).bind k

instance : Monad (Thread σ) where
  pure := .done
  bind := bind

/-- An atomic read. -/
def read (f : σ → α) : Thread σ α := .act id fun s => .done (f s)

/-- An atomic write. -/
def write (f : σ → σ) : Thread σ Unit := .act f fun _ => .done ()

/-- Nothing else runs until the thread has finished: its result and the state. -/
def alone : Thread σ α → σ → α × σ
  | .done a, s => (a, s)
  | .act w n, s => (n s).alone (w s)

end Thread

/-- Shared state and threads. -/
structure System (σ α : Type) where
  shared : σ
  threads : List (Thread σ α)

namespace System
variable {σ α : Type}

/-- Thread `i` makes its next access; nothing happens when it has finished or does not exist. -/
def step (S : System σ α) (i : Nat) : System σ α :=
  match S.threads[i]? with
  | some (.act w n) => ⟨w S.shared, S.threads.set i (n S.shared)⟩
  | _ => S

/-- The threads run in the given order. A thread that is never scheduled again has been stopped. -/
def run (S : System σ α) (sched : List Nat) : System σ α := sched.foldl step S

/-- What thread `i` has returned, if it has finished. -/
def result (S : System σ α) (i : Nat) : Option α :=
  match S.threads[i]? with
  | some (.done a) => some a
  | _ => none

end System

variable {K : Type}

/-- A polygon object in memory. `obj` holds the attributes (its field `yPolylines` is not used); `_y_polylines` is a pair
of references to list objects, because polygon.py:317-320 reverses the lists after they are stored (304-316). -/
structure Shared (K : Type) where
  obj : Polygon K
  lists : List (List (K × K))
  refs : Option (Nat × Nat)

namespace Shared

/-- The list object at an address. -/
def list (s : Shared K) (i : Nat) : List (K × K) := s.lists[i]?.getD []

/-- The polygon with the present contents of the lists. -/
def view (s : Shared K) : Polygon K := { s.obj with yPolylines := s.refs.map fun r => (s.list r.1, s.list r.2) }

/-- A polygon object put in memory. -/
def of (s : Polygon K) : Shared K :=
  match s.yPolylines with
  | some (l, r) => ⟨s, [l, r], some (0, 1)⟩
  | none => ⟨s, [], none⟩

end Shared

/-- Read an attribute. -/
def attr {α : Type} (f : Polygon K → α) : Thread (Shared K) α := .read fun s => f s.obj

/-- Assign to an attribute. -/
def setAttr (f : Polygon K → Polygon K) : Thread (Shared K) Unit := .write fun s => { s with obj := f s.obj }

/-- The reading operations of PolyOp. -/
inductive ReadOp (K : Type) where
  | isConvex
  | isSimple
  | centroid
  | boundingBox
  | contains (p : PyPoint K)
  | tangents (p : Vec2 K)

/-- The same operation in a history. -/
def ReadOp.toOp : ReadOp K → PolyOp K
  | .isConvex => .isConvex
  | .isSimple => .isSimple
  | .centroid => .centroid
  | .boundingBox => .boundingBox
  | .contains p => .contains p
  | .tangents p => .tangents p

/-- What a reading operation returns. -/
inductive ReadAns (K : Type) where
  | flag (r : Py Bool)
  | point (r : Py (Option (Vec2 K)))
  | box (r : Py (Box K))
  | pair (r : Py (Vec2 K × Vec2 K))

section
variable [Add K] [Sub K] [Mul K] [Div K] [Zero K] [One K] [BEq K] [LT K] [LE K] [DecidableLT K] [DecidableLE K]

/-- The answer on a polygon that nobody else uses. -/
def ReadOp.answer (eps : K) (s : Polygon K) : ReadOp K → ReadAns K
  | .isConvex => .flag (.ok s.isConvex.1)
  | .isSimple => .flag (.ok s.isSimple.1)
  | .centroid => .point s.getCentroid.1
  | .boundingBox => .box s.boundingBox.1
  | .contains p => .flag (s.containsPoint eps p).1
  | .tangents p => .pair (s.tangentsToPoint p).1

namespace Threaded

/-- polygon.py:302-316: the two polylines before they are reversed, and whether the first is the left one. -/
def rawPolylines (verts : List (Vec2 K)) : List (K × K) × List (K × K) × Bool :=
  let e := Polygon.yExtremes verts
  let yx : List (K × K) := verts.map fun v => (v.y, v.x)
  if e.minI < e.maxI then
    ((yx.take (e.maxI + 1)).drop e.minI, yx.drop e.maxI ++ yx.take (e.minI + 1),
      decide ((e.minI ≤ e.leftI ∧ e.leftI < e.maxI) ∨ e.rightI < e.minI ∨ e.rightI > e.maxI))
  else
    ((yx.take (e.minI + 1)).drop e.maxI, yx.drop e.minI ++ yx.take (e.maxI + 1),
      decide ((e.minI ≥ e.leftI ∧ e.leftI > e.maxI) ∨ e.rightI > e.minI ∨ e.rightI < e.maxI))

/-- polygon.py:317-320: `pl.reverse()` if the list starts above its end. Only the thread that made the list does this,
so that the test and the reversal are one access. -/
def reverseList (i : Nat) : Thread (Shared K) Unit :=
  .write fun s => { s with lists := s.lists.set i (Polygon.upward (s.list i)) }

/-- polygon.py:281-320 `_split_y_polylines`: the references are stored, then the lists are reversed. (The two new lists are
private until then.) -/
def split : Thread (Shared K) Unit := do
  let verts ← attr Polygon.verts
  let r := rawPolylines verts
  let n ← Thread.act (fun s : Shared K => { s with
      lists := s.lists ++ [r.1, r.2.1]
      refs := some (if r.2.2 then (s.lists.length, s.lists.length + 1) else (s.lists.length + 1, s.lists.length)) })
    fun s => .done s.lists.length
  reverseList n
  reverseList (n + 1)

/-- polygon.py:232-279 `_classify` (the attribute `_winding`, which nothing reads, is left out). Line 241 stores True before
anything is known; line 275 reads `_convex` again, and so does line 277. -/
def classify : Thread (Shared K) Unit := do
  setAttr fun o => { o with convex := some true }
  let verts ← attr Polygon.verts
  let r := Polygon.classifyRun verts
  if !r.convex then setAttr fun o => { o with convex := some false }
  if ¬ r.dirChanges ≤ 2 then setAttr fun o => { o with convex := some false }
  let c ← attr Polygon.convex
  setAttr fun o => { o with simple := if c = some true then some true else none }
  setAttr fun o => { o with degenerate := some (r.count == 0 || r.angleSign == 0) }
  let c ← attr Polygon.convex
  if c = some true then
    let d ← attr Polygon.degenerate
    if d = some false then
      setAttr fun o => { o with dupeVerts := some (decide (r.count < verts.length)) }
      split

/-- polygon.py:205-214 `is_convex`. -/
def isConvex : Thread (Shared K) Bool := do
  let c ← attr Polygon.convex
  if c = none then classify
  let c ← attr Polygon.convex
  return c.getD false

/-- polygon.py:322-337 `is_simple`. (None as the answer, when another thread has reset the attribute in line 275, is shown as
False.) -/
def isSimple : Thread (Shared K) Bool := do
  let b ← attr Polygon.simple
  if b = none then
    let c ← attr Polygon.convex
    if c = none then classify
    let b ← attr Polygon.simple
    if b = none then
      let verts ← attr Polygon.verts
      let v := Polygon.checkSimple verts
      setAttr fun o => { o with simple := some v }
  let b ← attr Polygon.simple
  return b.getD false

/-- polygon.py:397-427 `centroid`. -/
def getCentroid : Thread (Shared K) (Py (Option (Vec2 K))) := do
  match ← attr Polygon.centroid with
  | some c => return .ok c
  | none =>
    if ← isSimple then
      let verts ← attr Polygon.verts
      match Polygon.computeCentroid verts with
      | .error e => return .error e
      | .ok c =>
        setAttr fun o => { o with centroid := some (some c) }
        let c ← attr Polygon.centroid
        return .ok (c.getD none)
    else
      setAttr fun o => { o with centroid := some none }
      let c ← attr Polygon.centroid
      return .ok (c.getD none)

/-- polygon.py:198-203 `bounding_box`. (The attribute is never None again once it is set: the last case does not occur.) -/
def boundingBox : Thread (Shared K) (Py (Box K)) := do
  match ← attr Polygon.bbox with
  | some _ => finish
  | none =>
    let verts ← attr Polygon.verts
    match Box.fromPoints verts with
    | .error e => return .error e
    | .ok b =>
      setAttr fun o => { o with bbox := some b }
      finish
where
  /-- polygon.py:203 -/
  finish : Thread (Shared K) (Py (Box K)) := do
    match ← attr Polygon.bbox with
    | some b => return .ok b
    | none => return .error .typeError

/-- polygon.py:609-656 `self._pnp_triangle_test(point)`: the method or the closure stored in the instance. -/
def pnpTriangle (eps : K) (point : PyPoint K) : Thread (Shared K) (Py Bool) := do
  match ← attr Polygon.triTest with
  | some c => return Polygon.TriClosure.run c point
  | none =>
    let verts ← attr Polygon.verts
    match Polygon.triangleClosure eps verts with
    | .error e => return .error e
    | .ok none => return .ok false
    | .ok (some c) =>
      setAttr fun o => { o with triTest := some c }
      return Polygon.TriClosure.run c point

/-- polygon.py:600-601 and 606-607: is the point on the left of the edge? -/
def leftOfEdge (p : Vec2 K) (v0 v1 : Py (K × K)) : Py Bool := do
  let (v0y, v0x) ← v0
  let (v1y, v1x) ← v1
  return decide ((v1x - v0x) * (p.y - v0y) - (p.x - v0x) * (v1y - v0y) > 0)

/-- A reference to a list object: read it. -/
def listAt (i : Nat) : Thread (Shared K) (List (K × K)) := .read fun s => s.list i

/-- polygon.py:584-607 `_pnp_y_monotone_test`; every use of a list is an access. (`_y_polylines` is never None again once
it is set: the first case does not occur.) -/
def pnpYMonotone (p : Vec2 K) : Thread (Shared K) (Py Bool) := do
  match ← Thread.read Shared.refs with
  | none => return .error .typeError
  | some (l, r) =>
    let pl ← listAt l
    let i := Polygon.bisectRight pl p.y
    let pl ← listAt l
    if i = 0 || i = pl.length then return .ok false
    let pl ← listAt l
    let v0 := pyGet pl ((i : Int) - 1)
    let pl ← listAt l
    let v1 := pyGet pl i
    match leftOfEdge p v0 v1 with
    | .error e => return .error e
    | .ok true => return .ok false
    | .ok false =>
      let pl ← listAt r
      let i := Polygon.bisectRight pl p.y
      let pl ← listAt r
      let v0 := pyGet pl ((i : Int) - 1)
      let pl ← listAt r
      let v1 := pyGet pl i
      return leftOfEdge p v0 v1

/-- polygon.py:678-683 (`_min_r2` and `_max_r2` are read twice there; no reading operation writes them). A centroid that
is None (or unknown) makes the subtraction raise TypeError. -/
def radialTest (point : PyPoint K) : Thread (Shared K) (Py (Option Bool)) := do
  match ← attr Polygon.centroid with
  | some (some c) =>
    let d2 := (c - point.toVec).length2
    let lo ← attr Polygon.minR2
    if (match lo with | some r => decide (d2 < r) | none => false) then return .ok (some true)
    let hi ← attr Polygon.maxR2
    if (match hi with | some r => decide (d2 > r) | none => false) then return .ok (some false)
    return .ok none
  | _ => return .error .typeError

/-- polygon.py:684-688: the part of `contains_point` after the radial tests. -/
def containsRest (sides : Nat) (point : PyPoint K) : Thread (Shared K) (Py Bool) := do
  let refs ← Thread.read Shared.refs
  if refs.isSome then pnpYMonotone point.toVec
  else if sides = 4 then
    let verts ← attr Polygon.verts
    return .ok (Polygon.pnpWinding verts point.toVec)
  else
    match ← boundingBox with
    | .error e => return .error e
    | .ok b =>
      if b.containsPoint point.toVec then
        let verts ← attr Polygon.verts
        return .ok (Polygon.pnpWinding verts point.toVec)
      else return .ok false

/-- polygon.py:658-688 `contains_point`. -/
def containsPoint (eps : K) (point : PyPoint K) : Thread (Shared K) (Py Bool) := do
  let verts ← attr Polygon.verts
  let sides := verts.length
  if sides = 3 then pnpTriangle eps point
  else
    let cen ← attr Polygon.centroid
    if cen.isSome ∧ sides > 4 then
      match ← radialTest point with
      | .error e => return .error e
      | .ok (some b) => return .ok b
      | .ok none => containsRest sides point
    else containsRest sides point

/-- polygon.py:800-817 `tangents_to_point`. -/
def tangentsToPoint (p : Vec2 K) : Thread (Shared K) (Py (Vec2 K × Vec2 K)) := do
  let verts ← attr Polygon.verts
  if verts.length > 20 then
    if ← isConvex then
      let d ← attr Polygon.dupeVerts
      if !(d.getD true) then
        return (do
          let l ← Polygon.leftTan verts p
          let lv ← pyGet verts l
          let r ← Polygon.rightTan verts p
          let rv ← pyGet verts r
          return (lv, rv))
      else return Polygon.ptTangents verts p
    else return Polygon.ptTangents verts p
  else return Polygon.ptTangents verts p

end Threaded

/-- The thread that makes one reading operation. -/
def ReadOp.thread (eps : K) : ReadOp K → Thread (Shared K) (ReadAns K)
  | .isConvex => do return .flag (.ok (← Threaded.isConvex))
  | .isSimple => do return .flag (.ok (← Threaded.isSimple))
  | .centroid => do return .point (← Threaded.getCentroid)
  | .boundingBox => do return .box (← Threaded.boundingBox)
  | .contains p => do return .flag (← Threaded.containsPoint eps p)
  | .tangents p => do return .pair (← Threaded.tangentsToPoint p)

/-- Threads that each make one reading operation on the same polygon. -/
def startReads (eps : K) (s : Polygon K) (ops : List (ReadOp K)) : System (Shared K) (ReadAns K) :=
  ⟨Shared.of s, ops.map (ReadOp.thread eps)⟩

end

namespace AffObj
variable [Add K] [Sub K] [Mul K] [Neg K] [Zero K] [One K] [LT K] [LE K] [DecidableLT K] [DecidableLE K]

/-- util.py:29-34, the getter of a cached property: look in `__dict__`, else compute the value and store it. -/
def cachedThread {V : Type} (look : AffObj K → Option V) (store : V → AffObj K → AffObj K)
    (compute : Thread (AffObj K) V) : Thread (AffObj K) V := do
  match ← Thread.read look with
  | some v => return v
  | none =>
    let v ← compute
    Thread.write (store v)
    return v

/-- transform.py:180-187 `is_conformal`. -/
def conformalThread (eps : K) : Thread (AffObj K) Bool :=
  cachedThread (·.cConformal) (fun v o => { o with cConformal := some v }) (.read fun o => o.T.isConformal eps)

/-- transform.py:154-161 `determinant`. -/
def detThread : Thread (AffObj K) K :=
  cachedThread (·.cDet) (fun v o => { o with cDet := some v }) (.read fun o => o.T.determinant)

/-- transform.py:154-208: reading a property of a transform that other threads read too. -/
def propThread (eps : K) : AffProp → Thread (AffObj K) (AffVal K)
  | .determinant => do return .num (← detThread)
  | .isIdentity => do
    return .flag (← cachedThread (·.cIdentity) (fun v o => { o with cIdentity := some v })
      (.read fun o => o.T.isIdentity eps o.isIdObj))
  | .isRectilinear => do
    return .flag (← cachedThread (·.cRectilinear) (fun v o => { o with cRectilinear := some v })
      (.read fun o => o.T.isRectilinear eps))
  | .isConformal => do return .flag (← conformalThread eps)
  | .isOrthonormal => do
    return .flag (← cachedThread (·.cOrthonormal) (fun v o => { o with cOrthonormal := some v }) (do
      let c ← conformalThread eps
      Thread.read fun o => c && pyabs (1 - (o.T.a*o.T.a + o.T.d*o.T.d)) < eps
        && pyabs (1 - (o.T.b*o.T.b + o.T.e*o.T.e)) < eps))
  | .isDegenerate => do
    return .flag (← cachedThread (·.cDegenerate) (fun v o => { o with cDegenerate := some v }) (do
      let d ← detThread
      return decide (pyabs d < eps)))

end AffObj
end Planar
