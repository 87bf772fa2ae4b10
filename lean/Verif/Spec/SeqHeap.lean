import Verif.Model.SeqHeap
/- Specification of C72: which object a statement may change, and a machine without a heap, in which every object is an
independent value. -/
namespace Planar.Spec
variable {K : Type}

/-- The object the statement is allowed to change, if any: the one a mutating method or in-place operator is applied to. -/
def changes : SeqStmt K → Option Nat
  | .setItem i _ _ => some i
  | .setSlice i _ _ _ _ => some i
  | .append i _ => some i
  | .insert i _ _ => some i
  | .delItem i _ => some i
  | .delSlice i _ _ _ => some i
  | .extend i _ => some i
  | .normalize i => some i
  | .clamp i _ _ => some i
  | .inplace _ i _ => some i
  | .inplaceWith _ i _ => some i
  | _ => none

/-- What a program can see of its objects: class and items of each. Nothing is shared here: an object *is* its items. -/
abbrev World (K : Type) := List (SeqCls × List (Vec2 K))

/-- What can be seen of a heap. -/
def seen (h : SeqHeap K) : World K := h.objs.map fun o => (o.1, h.list o.2)

namespace World

/-- Object `i` keeps its class and gets other items; all others stay as they are. -/
def put (w : World K) (i : Nat) (vs : List (Vec2 K)) : World K := w.modify i fun o => (o.1, vs)

/-- One more object, if the value is a sequence of vectors. -/
def keep (w : World K) : Py (Value K) → World K
  | .ok (.seq c vs) => w ++ [(c, vs)]
  | _ => w

variable [PyMath K] [Add K] [Sub K] [Mul K] [Div K] [Zero K] [One K] [BEq K] [LT K] [DecidableLT K]

/-- What `x op= y` does to object `i`. -/
def putOp (w : World K) (i : Nat) : Py (Value K × Bool) → Option (World K)
  | .ok (.seq _ vs, true) => some (w.put i vs)
  | .ok (.seqNested _ _, true) => none
  | .ok (v, _) => some (w.keep (.ok v))
  | .error _ => some w

/-- The effect of a statement when objects are independent values. A statement about an object that does not exist, or
does not have the method, does nothing; so does one that raises an exception. `none`: the statement does not end, or (for
in-place operators) leaves an array holding things other than vectors, see C71. -/
def step (eps : K) (w : World K) : SeqStmt K → Option (World K)
  | .make c vs => some (if c = .polygon ∧ vs.length < 3 then w else w ++ [(c, vs)])
  | .convert c j => match w[j]? with
    | some (_, vs) => some (if c = .polygon ∧ vs.length < 3 then w else w ++ [(c, vs)])
    | none => some w
  | .fromPoints c j => match w[j]? with
    | some (_, vs) => some (w ++ [(c, vs)])
    | none => some w
  | .copy j => match w[j]? with
    | some (c, vs) => some (w ++ [(c, vs)])
    | none => some w
  | .slice j start stop step => match w[j]? with
    | some (.array, vs) => match Vec2Array.getSlice vs start stop step with
      | .ok ws => some (w ++ [(.array, ws)])
      | .error _ => some w
    | _ => some w
  | .setItem i k v => match w[i]? with
    | some (_, vs) => some (w.put i (Vec2Array.setItem vs k v).2)
    | none => some w
  | .setSlice i start stop step j => match w[i]?, w[j]? with
    | some (.array, vs), some (_, ws) => some (w.put i (Vec2Array.setSlice vs start stop step ws).2)
    | _, _ => some w
  | .append i v => match w[i]? with
    | some (.array, vs) => some (w.put i (vs ++ [v]))
    | _ => some w
  | .insert i k v => match w[i]? with
    | some (.array, vs) => some (w.put i (Vec2Array.insert vs k v))
    | _ => some w
  | .delItem i k => match w[i]? with
    | some (.array, vs) => some (w.put i (Vec2Array.delItem vs k).2)
    | _ => some w
  | .delSlice i start stop step => match w[i]? with
    | some (.array, vs) => some (w.put i (Vec2Array.delSlice vs start stop step).2)
    | _ => some w
  | .extend i j => match w[i]?, w[j]? with
    | some (.array, vs), some (_, ws) => if i = j ∧ vs ≠ [] then none else some (w.put i (vs ++ ws))
    | _, _ => some w
  | .normalize i => match w[i]? with
    | some (.array, vs) => some (w.put i (Vec2Array.normalize eps vs).2)
    | _ => some w
  | .clamp i lo hi => match w[i]? with
    | some (.array, vs) => some (w.put i (Vec2Array.clamp eps vs lo hi).2)
    | _ => some w
  | .binop op i j => match w[i]?, w[j]? with
    | some (c, vs), some (d, ws) => some (w.keep (Operand.binop op (.seq c vs) (.seq d ws)))
    | _, _ => some w
  | .binopWith op i x => match w[i]? with
    | some (c, vs) => some (w.keep (Operand.binop op (.seq c vs) x))
    | none => some w
  | .rbinopWith op x i => match w[i]? with
    | some (c, vs) => some (w.keep (Operand.binop op x (.seq c vs)))
    | none => some w
  | .inplace op i j => match w[i]?, w[j]? with
    | some (c, vs), some (d, ws) => w.putOp i (Operand.inplace op (.seq c vs) (.seq d ws))
    | _, _ => some w
  | .inplaceWith op i x => match w[i]? with
    | some (c, vs) => w.putOp i (Operand.inplace op (.seq c vs) x)
    | none => some w

/-- A whole program. -/
def run (eps : K) (w : World K) (prog : List (SeqStmt K)) : Option (World K) :=
  prog.foldlM (fun w s => w.step eps s) w

end World
end Planar.Spec
