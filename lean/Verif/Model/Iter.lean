import Verif.Model.SeqHeap
/- Iterators over sequence objects: programs of the statements of Model/SeqHeap, `iter(obj)`, `next(it)`, `len(obj)` and
`bool(obj)`. A `for` loop is `iter` followed by `next` before each run of the body; `list(obj)`, unpacking and comprehensions
are loops as well. -/
namespace Planar
variable {K : Type}

/-- vector.py:500-501 `iter(self._vectors)`: CPython's list iterator: the list it goes through (none once it has met the
end: it then stays exhausted even if the list grows) and its position. It refers to the list object, not to the sequence. -/
structure ListIter where
  list : Option Nat
  pos : Nat

/-- A heap and the iterators made so far. -/
structure IterHeap (K : Type) where
  heap : SeqHeap K
  iters : List ListIter

/-- A statement of a program that iterates. -/
inductive IterStmt (K : Type) where
  | stmt (s : SeqStmt K)
  /-- `iter(obj_i)` -/
  | iter (i : Nat)
  /-- `next(it_k)` -/
  | next (k : Nat)
  /-- `len(obj_i)` -/
  | len (i : Nat)
  /-- `bool(obj_i)` -/
  | bool (i : Nat)

/-- What it shows. -/
inductive IterOut (K : Type) where
  | nothing
  | len (n : Nat)
  | bool (b : Bool)
  | item (v : Vec2 K)
  | stop

namespace IterHeap

/-- vector.py:491-501 `__len__`, `__iter__`, 534-535 `__bool__`: statements about iteration (about an object or iterator that does not exist: nothing). -/
def exec (g : IterHeap K) : IterStmt K → IterOut K × IterHeap K
  | .stmt _ => (.nothing, g)
  | .iter i => match g.heap.objs[i]? with
    | some (_, r) => (.nothing, { g with iters := g.iters ++ [⟨some r, 0⟩] })
    | none => (.nothing, g)
  | .next k => match g.iters[k]? with
    | some ⟨some r, p⟩ => match (g.heap.list r)[p]? with
      | some v => (.item v, { g with iters := g.iters.set k ⟨some r, p + 1⟩ })
      | none => (.stop, { g with iters := g.iters.set k ⟨none, p⟩ })
    | some ⟨none, _⟩ => (.stop, g)
    | none => (.nothing, g)
  -- vector.py:491-492
  | .len i => match g.heap.view i with
    | some (_, vs) => (.len vs.length, g)
    | none => (.nothing, g)
  -- vector.py:534-535
  | .bool i => match g.heap.view i with
    | some (_, vs) => (.bool !vs.isEmpty, g)
    | none => (.nothing, g)

section
variable [PyMath K] [Add K] [Sub K] [Mul K] [Div K] [Zero K] [One K] [BEq K] [LT K] [DecidableLT K]

/-- One statement. -/
inductive Step (eps : K) : IterHeap K → IterStmt K → IterOut K → IterHeap K → Prop where
  | stmt {h h' : SeqHeap K} {its : List ListIter} {s : SeqStmt K} : SeqHeap.Step eps h s h' →
      Step eps ⟨h, its⟩ (.stmt s) .nothing ⟨h', its⟩
  | exec {g : IterHeap K} {s : IterStmt K} : (∀ t, s ≠ .stmt t) → Step eps g s (g.exec s).1 (g.exec s).2

/-- `Runs g prog outs g'`: the program ends, shows `outs`, one for each statement, and leaves `g'`. -/
inductive Runs (eps : K) : IterHeap K → List (IterStmt K) → List (IterOut K) → IterHeap K → Prop where
  | nil {g : IterHeap K} : Runs eps g [] [] g
  | cons {g g₁ g' : IterHeap K} {s : IterStmt K} {o : IterOut K} {p : List (IterStmt K)} {os : List (IterOut K)} :
      Step eps g s o g₁ → Runs eps g₁ p os g' → Runs eps g (s :: p) (o :: os) g'

end
end IterHeap
end Planar
