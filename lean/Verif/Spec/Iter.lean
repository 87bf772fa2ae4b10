import Verif.Model.Iter
import Verif.Spec.SeqHeap
/- Specification of C99: iteration over independent values. -/
namespace Planar.Spec
variable {K : Type}

/-- An iterator, to somebody who sees objects as values: it is at item `p` of object `i`; or it has been left behind with
the items the object had before they were replaced; or it has met the end. -/
inductive Cursor (K : Type) where
  | on (i p : Nat)
  | behind (items : List (Vec2 K)) (p : Nat)
  | ended

/-- Objects as values, and iterators. -/
structure IterWorld (K : Type) where
  world : World K
  cursors : List (Cursor K)

section
variable [PyMath K] [Add K] [Sub K] [Mul K] [Div K] [Zero K] [One K] [BEq K] [LT K] [DecidableLT K]

/-- Whether `obj op= x`, with this outcome, replaces the items of the object at once, in contrast to assigning to them. -/
def replacesAll (x : Operand K) : Py (Value K × Bool) → Bool
  | .ok (.seq _ _, true) => match x with
    | .affine _ => false
    | _ => true
  | _ => false

/-- The object whose items the statement replaces at once, if any: `normalize`, `clamp` and the in-place operators of arrays
other than `*=` with a transform, if they succeed. -/
def replaces (eps : K) (w : World K) : SeqStmt K → Option Nat
  | .normalize i => match w[i]? with
    | some (.array, vs) => if (Vec2Array.normalize eps vs).1 = .ok () then some i else none
    | _ => none
  | .clamp i lo hi => match w[i]? with
    | some (.array, vs) => if (Vec2Array.clamp eps vs lo hi).1 = .ok () then some i else none
    | _ => none
  | .inplace op i j => match w[i]?, w[j]? with
    | some (c, vs), some (d, ws) =>
      if replacesAll (.seq d ws) (Operand.inplace op (.seq c vs) (.seq d ws)) then some i else none
    | _, _ => none
  | .inplaceWith op i x => match w[i]? with
    | some (c, vs) => if replacesAll x (Operand.inplace op (.seq c vs) x) then some i else none
    | none => none
  | _ => none

/-- Items of object `i`. -/
def World.items (w : World K) (i : Nat) : List (Vec2 K) := (w[i]?.map Prod.snd).getD []

/-- An iterator over an object whose items are replaced is left behind. -/
def Cursor.leave (w : World K) (r : Option Nat) : Cursor K → Cursor K
  | .on i p => if r = some i then .behind (w.items i) p else .on i p
  | c => c

/-- The next item, if any, and the iterator afterwards. -/
def Cursor.next (w : World K) : Cursor K → IterOut K × Cursor K
  | .on i p => match (w.items i)[p]? with
    | some v => (.item v, .on i (p + 1))
    | none => (.stop, .ended)
  | .behind vs p => match vs[p]? with
    | some v => (.item v, .behind vs (p + 1))
    | none => (.stop, .ended)
  | .ended => (.stop, .ended)

namespace IterWorld

/-- One statement; `none` if it does not end, or leaves things other than vectors in an array. -/
def step (eps : K) (g : IterWorld K) : IterStmt K → Option (IterOut K × IterWorld K)
  | .stmt s => (g.world.step eps s).map fun w' => (.nothing, ⟨w', g.cursors.map (Cursor.leave g.world (replaces eps g.world s))⟩)
  | .iter i => if i < g.world.length then some (.nothing, { g with cursors := g.cursors ++ [.on i 0] }) else some (.nothing, g)
  | .next k => match g.cursors[k]? with
    | some c => some ((c.next g.world).1, { g with cursors := g.cursors.set k (c.next g.world).2 })
    | none => some (.nothing, g)
  | .len i => match g.world[i]? with
    | some (_, vs) => some (.len vs.length, g)
    | none => some (.nothing, g)
  | .bool i => match g.world[i]? with
    | some (_, vs) => some (.bool (decide (vs ≠ [])), g)
    | none => some (.nothing, g)

/-- A whole program: what it shows, and what it leaves. -/
def run (eps : K) : IterWorld K → List (IterStmt K) → Option (List (IterOut K) × IterWorld K)
  | g, [] => some ([], g)
  | g, s :: p => (g.step eps s).bind fun r => (run eps r.2 p).map fun q => (r.1 :: q.1, q.2)

end IterWorld
end

/-- What the calls of `next(it_k)` have shown. -/
def shown (k : Nat) : List (IterStmt K) → List (IterOut K) → List (IterOut K)
  | .next j :: p, o :: os => if j = k then o :: shown k p os else shown k p os
  | _ :: p, _ :: os => shown k p os
  | _, _ => []

/-- The statement does not assign to items of object `i`, remove or add some; it may replace them all. -/
def Leaves (i : Nat) (s : SeqStmt K) : Prop :=
  changes s ≠ some i ∨ (∃ lo hi, s = .clamp i lo hi) ∨ s = .normalize i ∨ (∃ op j, s = .inplace op i j) ∨
  ∃ op x, s = .inplaceWith op i x ∧ ∀ T, x ≠ .affine T

/-- The statement does not change the number of items of object `i`, unless it replaces them all. -/
def Keeps (i : Nat) (s : SeqStmt K) : Prop :=
  Leaves i s ∨ (∃ k v, s = .setItem i k v) ∨ ∃ op T, s = .inplaceWith op i (.affine T)

end Planar.Spec
