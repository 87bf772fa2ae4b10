import Verif.Model.Polygon
/- Python operator dispatch where a vector meets an array, and slice assignment to a Seq2 or Polygon:
places where duck typing makes the result depend on lengths. -/
namespace Planar
variable {K : Type}

/-- Result of an operator between a vector and an array: an array, or a `Vec2` whose two
"coordinates" are vectors. -/
inductive OpResult (K : Type) where
  | arr (vs : Vecs K)
  | nested (v : Vec2 (Vec2 K))
  deriving Repr

/-- `v + a`: `Vec2.__add__` (vector.py:339-349) unpacks `a`. With exactly two items it goes on to
`float + Vec2`, a TypeError (neither type implements it); otherwise it answers NotImplemented and
`Vec2Array.__radd__` (vector.py:658-681) runs. -/
def vecAddArr [Add K] [Mul K] [One K] (v : Vec2 K) (a : Vecs K) : Py (OpResult K) :=
  match a with
  | [_, _] => .error .typeError
  | _ => do return .arr (← Vec2Array.add a (.vec v))

/-- `a + v`: `Vec2Array.__add__` (vector.py:658-679). -/
def arrAddVec [Add K] [Mul K] [One K] (a : Vecs K) (v : Vec2 K) : Py (OpResult K) := do
  return .arr (← Vec2Array.add a (.vec v))

/-- `v * a`: `Vec2.__mul__` (vector.py:367-382): `float(a)` is a TypeError, then `a` is unpacked. With
exactly two items the products `float * Vec2` are vectors (Vec2.__rmul__); otherwise
NotImplemented and `Vec2Array.__rmul__` (vector.py:783) runs. -/
def vecMulArr [Mul K] [One K] (v : Vec2 K) (a : Vecs K) : Py (OpResult K) :=
  match a with
  | [p, q] => .ok (.nested ⟨p.smul v.x, q.smul v.y⟩)
  | _ => do return .arr (← Vec2Array.mul a (.vec v))

/-- `a * v`: `Vec2Array.__mul__` (vector.py:755-781). -/
def arrMulVec [Mul K] [One K] (a : Vecs K) (v : Vec2 K) : Py (OpResult K) := do
  return .arr (← Vec2Array.mul a (.vec v))

/-- An item of the `_vectors` list of a Seq2 after arbitrary item assignments. -/
inductive Cell (K : Type) where
  | vec (v : Vec2 K)
  | num (k : K)
  deriving Repr

/-- vector.py:497-498 `Seq2.__setitem__` (also Polygon, polygon.py:437-439) with a contiguous slice: the
right-hand side is the single object `Vec2(*value)`, whose two numbers are spliced into the
list. -/
def seq2SetSlice [Mul K] [One K] (s : List (Cell K)) (start stop : Option Int) (value : Vec2 K) :
    List (Cell K) :=
  let v := value.copy
  let b := sliceBounds s.length start stop 1
  let stop' := if b.2 < b.1 then b.1 else b.2
  s.take b.1.toNat ++ [.num v.x, .num v.y] ++ s.drop stop'.toNat

end Planar
