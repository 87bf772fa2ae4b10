import Verif.Model.Dispatch
/- The Python binary operators `+ - * / //` and their in-place forms between the values of planar: which method
runs (`__op__` of the left operand, else the reflected method of the right one, else TypeError), and what it returns.
Operands that are neither vectors, transforms nor sequences of vectors are numbers and tuples of numbers; boxes, lines,
rays and segments only take part in `*` with a transform and have their own models. -/
namespace Planar
variable {K : Type}

/-- The classes derived from `Seq2`: `Seq2` itself (vector.py:475), `Vec2Array` (vector.py:541) and `Polygon`
(polygon.py:50). -/
inductive SeqCls where
  | seq2 | array | polygon
  deriving DecidableEq, Repr

/-- An operand. `seq` stands for a Seq2, a Vec2Array or a Polygon, by its list of vectors (the cached attributes of a
polygon do not matter to the operators). -/
inductive Operand (K : Type) where
  | num (k : K)
  | tup (ks : List K)
  | vec (v : Vec2 K)
  | affine (T : Affine K)
  | seq (c : SeqCls) (vs : List (Vec2 K))

/-- A result. `nested` is a `Vec2` whose "coordinates" are vectors, `seqNested` a sequence of those; `foreign` stands
for an operation that does not involve planar at all. -/
inductive Value (K : Type) where
  | vec (v : Vec2 K)
  | affine (T : Affine K)
  | seq (c : SeqCls) (vs : List (Vec2 K))
  | tup (ks : List K)
  | nested (v : Vec2 (Vec2 K))
  | seqNested (c : SeqCls) (vs : List (Vec2 (Vec2 K)))
  | foreign

/-- The operators. -/
inductive BinOp where
  | add | sub | mul | truediv | floordiv
  deriving DecidableEq, Repr

/-- What a special method returns: `none` is `NotImplemented`. -/
abbrev Meth (K : Type) := Py (Option (Value K))

namespace Operand

/-- The method answers `NotImplemented`. -/
def notImpl : Meth K := .ok none

/-- The method answers the value, or the exception raised while computing it passes through. -/
def answer {α : Type} (f : α → Value K) (r : Py α) : Meth K := r.map fun a => some (f a)

section
variable [PyMath K] [Add K] [Sub K] [Mul K] [Div K] [Zero K] [One K] [BEq K]

/-- The operator between two vectors, coordinate by coordinate (vector.py:349, 363, 382, 404, 439). -/
def vecVec (op : BinOp) (a b : Vec2 K) : Py (Vec2 K) :=
  match op with
  | .add => .ok (a + b)
  | .sub => .ok (a - b)
  | .mul => .ok (a.vmul b)
  | .truediv => a.vdiv b
  | .floordiv => a.vfdiv b

/-- The operator between a vector and a number; `+` and `-` fail to unpack a number (vector.py:345-348, 359-362): the
method answers NotImplemented and nothing else implements it. -/
def vecNum (op : BinOp) (a : Vec2 K) (k : K) : Py (Vec2 K) :=
  match op with
  | .add => .error .typeError
  | .sub => .error .typeError
  | .mul => .ok (a.smul k)
  | .truediv => a.sdiv k
  | .floordiv => a.sfdiv k

/-- The operator between a number and a vector, when the number is on the left: `float` does not implement it, so it is
`Vec2.__rmul__`, `__rtruediv__`, `__rfloordiv__` (vector.py:384-385, 406-414, 441-450); there is no `__radd__` or
`__rsub__`. -/
def numVec (op : BinOp) (k : K) (a : Vec2 K) : Py (Vec2 K) :=
  match op with
  | .add => .error .typeError
  | .sub => .error .typeError
  | .mul => .ok (a.smul k)
  | .truediv => a.rsdiv k
  | .floordiv => a.rsfdiv k

/-- The tuple of two values computed one after the other (vector.py:382, 404, 439 when the coordinates of the other
operand are vectors). -/
def pair (x y : Py (Vec2 K)) : Py (Vec2 (Vec2 K)) := do
  let x ← x
  let y ← y
  return ⟨x, y⟩

/-- vector.py:339-439 `Vec2.__add__`, `__sub__`, `__mul__`, `__truediv__`, `__floordiv__` for any other operand: what
unpacks into two items is combined coordinate by coordinate, also when the items are vectors. -/
def vecOp (op : BinOp) (v : Vec2 K) : Operand K → Meth K
  | .num k => if op = .add ∨ op = .sub then notImpl else answer .vec (vecNum op v k)
  | .tup [x, y] => answer .vec (vecVec op v ⟨x, y⟩)
  | .tup _ => notImpl
  | .vec w => answer .vec (vecVec op v w)
  | .affine _ => notImpl
  | .seq _ [p, q] => answer .nested (pair (numVec op v.x p) (numVec op v.y q))
  | .seq _ _ => notImpl

/-- vector.py:384-385, 406-420, 441-455 `Vec2.__rmul__`, `__rtruediv__`, `__rfloordiv__`; no reflected `+` and `-`. -/
def vecROp (op : BinOp) (v : Vec2 K) : Operand K → Meth K
  | .num k => if op = .add ∨ op = .sub then notImpl else answer .vec (numVec op k v)
  | .tup [x, y] => if op = .add ∨ op = .sub then notImpl else
      answer .vec (if op = .mul then vecVec .mul v ⟨x, y⟩ else vecVec op ⟨x, y⟩ v)
  | .tup _ => notImpl
  | .vec w => if op = .add ∨ op = .sub then notImpl else
      answer .vec (if op = .mul then vecVec .mul v w else vecVec op w v)
  | .affine _ => notImpl
  | .seq _ [p, q] => if op = .add ∨ op = .sub then notImpl else
      answer .nested (if op = .mul then pair (numVec .mul v.x p) (numVec .mul v.y q)
        else pair (vecNum op p v.x) (vecNum op q v.y))
  | .seq _ _ => notImpl

/-- `from_points` of class `c` with the sums (differences, ...) of the items of two sequences of the same length; otherwise
ValueError (vector.py:669-674, 707-713, 768-774, 817-823, 877-883 and the reflected 726-733, 839-845, 900-906). -/
def zipSeq (op : BinOp) (c : SeqCls) (s o : List (Vec2 K)) : Meth K :=
  if s.length = o.length then answer (.seq c) ((s.zip o).mapM fun ab => vecVec op ab.1 ab.2) else .error .valueError

/-- A sequence of nested vectors; one without items is like any other. -/
def mkNested (c : SeqCls) : List (Vec2 (Vec2 K)) → Value K
  | [] => .seq c []
  | l => .seqNested c l

/-- vector.py:658-892 `Vec2Array.__add__`, `__sub__`, `__mul__`, `__truediv__`, `__floordiv__`. `+` and `*` take any
sequence and give the class of the other operand, `-`, `/` and `//` only another Vec2Array. Anything else is tried as a
number (not for `+`, `-`) and as `Vec2(*other)`; this succeeds for every sequence of two vectors. -/
def arrOp (op : BinOp) (s : List (Vec2 K)) : Operand K → Meth K
  | .num k => if op = .add ∨ op = .sub then notImpl else answer (.seq .array) (s.mapM fun a => vecNum op a k)
  | .tup [x, y] => answer (.seq .array) (s.mapM fun a => vecVec op a (Vec2.mk' x y))
  | .tup _ => notImpl
  | .vec w => answer (.seq .array) (s.mapM fun a => vecVec op a w.copy)
  | .affine _ => notImpl
  | .seq c o =>
    if c = .array ∨ op = .add ∨ op = .mul then zipSeq op c s o
    else match o with
      | [p, q] => answer (mkNested .array)
          (s.mapM fun a => pair (numVec op a.x (p.smul 1)) (numVec op a.y (q.smul 1)))
      | _ => notImpl

/-- vector.py:681 `__radd__ = __add__`, 783 `__rmul__ = __mul__`, and 721-734 `__rsub__`, 834-846 `__rtruediv__`, 894-907
`__rfloordiv__` of a Vec2Array. -/
def arrROp (op : BinOp) (s : List (Vec2 K)) (other : Operand K) : Meth K :=
  if op = .add ∨ op = .mul then arrOp op s other
  else match other with
    | .seq c o => if s.length = o.length then answer (.seq c) ((s.zip o).mapM fun ab => vecVec op ab.2 ab.1)
        else .error .valueError
    | _ => notImpl

/-- transform.py:242-275 `Affine.__mul__` (and 277-282 `__rmul__`) for the operands considered here. -/
def affMul (T : Affine K) : Operand K → Meth K
  | .affine S => .ok (some (.affine (T * S)))
  | .seq c vs => .ok (some (.seq c (T.applyPts vs)))
  | .vec v => .ok (some (.vec (T.apply v)))
  | .tup [x, y] => .ok (some (.vec (T.apply ⟨x, y⟩)))
  | .tup _ => notImpl
  | .num _ => notImpl

/-- The method `__op__` of the left operand. Numbers and tuples do not know the classes of planar (`tuple` implements
`+` with tuples only after the reflected methods, see `binop`); Seq2 and Polygon define no operator; `Affine` raises
TypeError for `+` (transform.py:238-241) and inherits nothing for `-`, `/`, `//`. -/
def leftMeth (op : BinOp) : Operand K → Operand K → Meth K
  | .vec v, r => vecOp op v r
  | .seq .array s, r => arrOp op s r
  | .affine T, r => if op = .add then .error .typeError else if op = .mul then affMul T r else notImpl
  | _, _ => notImpl

/-- The reflected method `__rop__` of the right operand. -/
def rightMeth (op : BinOp) : Operand K → Operand K → Meth K
  | l, .vec v => vecROp op v l
  | l, .seq .array s => arrROp op s l
  | l, .affine T => if op = .mul then affMul T l else notImpl
  | _, _ => notImpl

/-- The operand is a tuple for Python, with these items. -/
def asTuple : Operand K → Option (List K)
  | .tup ks => some ks
  | .vec v => some [v.x, v.y]
  | .affine T => some [T.a, T.b, T.c, T.d, T.e, T.f, 0, 0, 1]
  | _ => none

/-- Whether Python finds the two operands to have the same class (then no reflected method is tried). -/
def sameClass : Operand K → Operand K → Bool
  | .num _, .num _ => true
  | .tup _, .tup _ => true
  | .vec _, .vec _ => true
  | .affine _, .affine _ => true
  | .seq c _, .seq d _ => c == d
  | _, _ => false

/-- `l op r` in Python: the method of the left operand, then the reflected method of the right operand (a right operand
of a subclass goes first, which makes no difference here: Seq2 and tuple have no method for the left side), then, for `+`
with a plain tuple on the left, the concatenation of tuples, else TypeError. Operations that only involve numbers and
tuples are not ours. -/
def binop (op : BinOp) (l r : Operand K) : Py (Value K) :=
  match l, r with
  | .num _, .num _ => .ok .foreign
  | .num _, .tup _ => .ok .foreign
  | .tup _, .num _ => .ok .foreign
  | .tup _, .tup _ => .ok .foreign
  | _, _ => do
    match ← leftMeth op l r with
    | some v => return v
    | none =>
      match ← (if sameClass l r then notImpl else rightMeth op l r) with
      | some v => return v
      | none => match op, l, asTuple r with
        | .add, .tup ks, some ls => return .tup (ks ++ ls)
        | _, _, _ => .error .typeError

/-- The in-place method of an array, if it succeeds (vector.py:683-699 `__iadd__`, 736-753 `__isub__`, 785-808 `__imul__`,
848-868 `__itruediv__`, 909-929 `__ifloordiv__`): the new contents of the array, `none` for NotImplemented. -/
def arrIop (op : BinOp) (s : List (Vec2 K)) : Operand K → Meth K
  | .num k => if op = .add ∨ op = .sub then notImpl else answer (.seq .array) (s.mapM fun a => vecNum op a k)
  | .tup [x, y] => answer (.seq .array) (s.mapM fun a => vecVec op a (Vec2.mk' x y))
  | .tup _ => if op = .mul then .error .typeError else notImpl
  | .vec w => answer (.seq .array) (s.mapM fun a => vecVec op a w.copy)
  | .affine T => if op = .mul then .ok (some (.seq .array (T.itransform s))) else notImpl
  | .seq c o =>
    if c = .array ∨ op = .add then zipSeq op .array s o
    else match o with
      | [p, q] => answer (mkNested .array)
          (s.mapM fun a => pair (numVec op a.x (p.smul 1)) (numVec op a.y (q.smul 1)))
      | _ => if op = .mul then .error .typeError else notImpl

/-- The in-place method of the left operand, if it has one. `Vec2.__iadd__` is `__add__`, and so on (vector.py:351, 365,
404, 439; there is no `__imul__`); a Seq2 and a Polygon only know `*=`, with whatever has `itransform`
(vector.py:503-509, polygon.py:515-522), and turn everything else into a TypeError; `Affine` at transform.py:241 and
284-288. The flag tells whether the object itself was changed (true) or the name is bound to a new object (false). -/
def inplaceMeth (op : BinOp) : Operand K → Operand K → Py (Option (Value K × Bool))
  | .vec v, r => if op = .mul then .ok none else (vecOp op v r).map (Option.map fun x => (x, false))
  | .seq .array s, r => (arrIop op s r).map (Option.map fun x => (x, true))
  | .seq c s, .affine T => if op = .mul then .ok (some (.seq c (T.itransform s), true)) else .ok none
  | .seq _ _, _ => if op = .mul then .error .typeError else .ok none
  | .affine T, r => if op = .add then .error .typeError
      else if op = .mul then match r with
        | .affine S => .ok (some (.affine (T * S), false))
        | .vec v => .ok (some (.vec (T.apply v), false))
        | _ => .ok none
      else .ok none
  | _, _ => .ok none

/-- `l op= r` in Python: the in-place method, and when there is none or it answers NotImplemented, `l = l op r`. -/
def inplace (op : BinOp) (l r : Operand K) : Py (Value K × Bool) := do
  match ← inplaceMeth op l r with
  | some x => return x
  | none => do
    let v ← binop op l r
    return (v, false)

end
end Operand
end Planar
