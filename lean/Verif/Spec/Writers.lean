import Verif.Model.Writers
/- What assignments by several threads may do to a vertex. -/
namespace Planar
variable {K : Type}

/-- The assignment changes vertex `j` of a polygon with `n` vertices. -/
def WriteOp.Writes (n j : Nat) : WriteOp K → Prop
  | .setItem i _ => pyIndex n i = some j
  | .imul _ => j < n

/-- The assignment is not to an item that does not exist. -/
def WriteOp.Valid (n : Nat) : WriteOp K → Prop
  | .setItem i _ => (pyIndex n i).isSome
  | .imul _ => True

/-- New values of vertex `j`: those assigned to it, and images of it under the transforms. -/
inductive NewValue [Add K] [Mul K] [One K] (ops : List (WriteOp K)) (old : List (Vec2 K)) (j : Nat) : Vec2 K → Prop
  | item (i : Int) (v : Vec2 K) (h : .setItem i v ∈ ops) (hi : pyIndex old.length i = some j) : NewValue ops old j v
  | first (T : Affine K) (h : .imul T ∈ ops) (x : Vec2 K) (hx : old[j]? = some x) : NewValue ops old j (T.apply x)
  | again (T : Affine K) (h : .imul T ∈ ops) (x : Vec2 K) (hx : NewValue ops old j x) : NewValue ops old j (T.apply x)

/-- The array after the operations with the given numbers, one after the other. -/
def inTurn [Mul K] [One K] (ops : List (ArrayOp K)) (s : Vecs K) (order : List Nat) : Vecs K :=
  order.foldl (fun u k => match ops[k]? with
    | some op => (op.run u).2
    | none => u) s

end Planar
