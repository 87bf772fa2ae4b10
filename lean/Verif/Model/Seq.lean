import Verif.Model.Affine
import Mathlib.Data.List.Sort
/- Model of classes Seq2 and Vec2Array, /repo/planar/vector.py:475-942. The object state is the
list `_vectors`. Mutating methods return the result or exception and the list afterwards. -/
namespace Planar

/-- Python's `sorted` and `list.sort` (polygon.py:377, 619, 972): a stable sort; `lt` is Python's `<` on the keys. The
result of a stable sort does not depend on the algorithm; insertion sort is used here. -/
def pySorted {α : Type} (lt : α → α → Bool) (l : List α) : List α := l.insertionSort fun a b => lt b a = false

/-- CPython `PySlice_AdjustIndices`: the concrete start and stop of a slice of a sequence of
length `n` (`none` is an omitted bound). -/
def sliceBounds (n : Nat) (start stop : Option Int) (step : Int) : Int × Int :=
  let fix (dflt lo hi : Int) : Option Int → Int
    | none => dflt
    | some i =>
      let i := if i < 0 then i + n else i
      if i < lo then lo else if i > hi then hi else i
  if step > 0 then (fix 0 0 n start, fix n 0 n stop)
  else (fix (n - 1) (-1) (n - 1) start, fix (-1) (-1) (n - 1) stop)

/-- The indices `range(start, stop, step)` of an adjusted slice. -/
def sliceIndices (n : Nat) (start stop : Option Int) (step : Int) : List Nat :=
  let b := sliceBounds n start stop step
  let count : Nat :=
    if step > 0 then ((b.2 - b.1 + step - 1) / step).toNat
    else ((b.1 - b.2 + (-step) - 1) / (-step)).toNat
  (List.range count).map fun (k : Nat) => (b.1 + (k : Int) * step).toNat

variable {K : Type}

/-- The list state of a Seq2 / Vec2Array. -/
abbrev Vecs (K : Type) := List (Vec2 K)

/-- Argument of an array operator: another array (or sequence), a vector, a scalar. -/
inductive ArrArg (K : Type) where
  | arr (vs : Vecs K)
  | vec (v : Vec2 K)
  | num (k : K)
  deriving Repr

namespace Vec2Array

/-- vector.py:481-482 and 544-545 `Seq2(vectors)` / `Vec2Array(vectors)`. -/
def new [Mul K] [One K] (vectors : List (Vec2 K)) : Vecs K := vectors.map Vec2.copy

/-- vector.py:484-489 `from_points`: the points are stored as they are. -/
def fromPoints (points : List (Vec2 K)) : Vecs K := points

/-- vector.py:494-495 and 550-551 `self[i]`. -/
def getItem (s : Vecs K) (i : Int) : Py (Vec2 K) := pyGet s i

/-- vector.py:548-549 `self[start:stop:step]`; a zero step is a ValueError of CPython. -/
def getSlice (s : Vecs K) (start stop : Option Int) (step : Int) : Py (Vecs K) :=
  if step = 0 then .error .valueError
  else .ok (fromPoints ((sliceIndices s.length start stop step).filterMap fun i => s[i]?))

/-- vector.py:497-498 and 556-557 `self[i] = value`. -/
def setItem [Mul K] [One K] (s : Vecs K) (i : Int) (value : Vec2 K) : Py Unit × Vecs K :=
  match pySet s i value.copy with
  | .error e => (.error e, s)
  | .ok s' => (.ok (), s')

/-- vector.py:554-555 `self[start:stop:step] = values` (list slice assignment of CPython: any length
when the step is 1, otherwise the same number of items, else ValueError). -/
def setSlice [Mul K] [One K] (s : Vecs K) (start stop : Option Int) (step : Int)
    (values : List (Vec2 K)) : Py Unit × Vecs K :=
  let vals := values.map Vec2.copy
  if step = 0 then (.error .valueError, s)
  else if step = 1 then
    let b := sliceBounds s.length start stop 1
    let stop' := if b.2 < b.1 then b.1 else b.2
    (.ok (), s.take b.1.toNat ++ vals ++ s.drop stop'.toNat)
  else
    let idx := sliceIndices s.length start stop step
    if idx.length = vals.length then
      (.ok (), (idx.zip vals).foldl (fun l iv => l.set iv.1 iv.2) s)
    else (.error .valueError, s)

/-- vector.py:559-565 `append`. -/
def append [Mul K] [One K] (s : Vecs K) (v : Vec2 K) : Vecs K := s ++ [v.copy]

/-- vector.py:567-572 `extend`. -/
def extend [Mul K] [One K] (s : Vecs K) (vs : List (Vec2 K)) : Vecs K := s ++ vs.map Vec2.copy

/-- vector.py:48 `Vec2(*v)` for a sequence of numbers of any length: TypeError unless it has two. -/
def ofSeq [Mul K] [One K] (v : List K) : Py (Vec2 K) :=
  match v with
  | [x, y] => .ok (Vec2.mk' x y)
  | _ => .error .typeError

/-- vector.py:559-565 `append` of an arbitrary sequence of numbers. -/
def appendRaw [Mul K] [One K] (s : Vecs K) (v : List K) : Py Unit × Vecs K :=
  match ofSeq v with
  | .error e => (.error e, s)
  | .ok w => (.ok (), s ++ [w])

/-- vector.py:567-572 `extend` with arbitrary sequences of numbers: `list.extend` consumes the
generator item by item, so items before a bad one stay in the list. -/
def extendRaw [Mul K] [One K] (s : Vecs K) : List (List K) → Py Unit × Vecs K
  | [] => (.ok (), s)
  | v :: vs => match ofSeq v with
    | .error e => (.error e, s)
    | .ok w => extendRaw (s ++ [w]) vs

/-- vector.py:574-582 `insert` (CPython clamps the index). -/
def insert [Mul K] [One K] (s : Vecs K) (i : Int) (v : Vec2 K) : Vecs K :=
  let n : Int := s.length
  let i := if i < 0 then i + n else i
  let i := if i < 0 then 0 else if i > n then n else i
  s.take i.toNat ++ v.copy :: s.drop i.toNat

/-- vector.py:481-482 and 544-545 the constructor given arbitrary sequences of numbers. -/
def newRaw [Mul K] [One K] (vectors : List (List K)) : Py (Vecs K) := vectors.mapM ofSeq

/-- vector.py:497-498 and 556-557 `self[i] = value` for an arbitrary sequence of numbers: `Vec2(*value)` comes first. -/
def setItemRaw [Mul K] [One K] (s : Vecs K) (i : Int) (value : List K) : Py Unit × Vecs K :=
  match ofSeq value with
  | .error e => (.error e, s)
  | .ok w => match pySet s i w with
    | .error e => (.error e, s)
    | .ok s' => (.ok (), s')

/-- vector.py:554-555 `self[start:stop:step] = values` for arbitrary sequences of numbers: the whole list of vectors is
made before anything is assigned. -/
def setSliceRaw [Mul K] [One K] (s : Vecs K) (start stop : Option Int) (step : Int) (values : List (List K)) :
    Py Unit × Vecs K :=
  match values.mapM ofSeq with
  | .error e => (.error e, s)
  | .ok ws => setSlice s start stop step ws

/-- vector.py:574-582 `insert` of an arbitrary sequence of numbers. -/
def insertRaw [Mul K] [One K] (s : Vecs K) (i : Int) (v : List K) : Py Unit × Vecs K :=
  match ofSeq v with
  | .error e => (.error e, s)
  | .ok w => (.ok (), insert s i w)

/-- vector.py:584-585 `del self[i]`. -/
def delItem (s : Vecs K) (i : Int) : Py Unit × Vecs K :=
  match pyIndex s.length i with
  | some k => (.ok (), s.eraseIdx k)
  | none => (.error .indexError, s)

/-- vector.py:584-585 `del self[start:stop:step]`. -/
def delSlice (s : Vecs K) (start stop : Option Int) (step : Int) : Py Unit × Vecs K :=
  if step = 0 then (.error .valueError, s)
  else
    let idx := sliceIndices s.length start stop step
    (.ok (), (List.range s.length).filterMap fun i => if i ∈ idx then none else s[i]?)

/-- vector.py:587-596 the loop of `longest`. -/
def longestLoop [Add K] [Mul K] [LT K] [DecidableLT K] :
    Vecs K → Option (Vec2 K) → K → Option (Vec2 K)
  | [], longest, _ => longest
  | v :: vs, longest, maxLen =>
    if v.length2 > maxLen then longestLoop vs (some v) v.length2 else longestLoop vs longest maxLen

/-- vector.py:587-596 `longest`. -/
def longest [Add K] [Mul K] [Zero K] [LT K] [DecidableLT K] (s : Vecs K) : Option (Vec2 K) :=
  longestLoop s none 0

/-- vector.py:604-608 the loop of `shortest`. -/
def shortestLoop [Add K] [Mul K] [LT K] [DecidableLT K] :
    Vecs K → Vec2 K → K → Vec2 K
  | [], shortest, _ => shortest
  | v :: vs, shortest, minLen =>
    if v.length2 < minLen then shortestLoop vs v v.length2 else shortestLoop vs shortest minLen

/-- vector.py:598-609 `shortest`. -/
def shortest [Add K] [Mul K] [LT K] [DecidableLT K] (s : Vecs K) : Option (Vec2 K) :=
  match s with
  | [] => none
  | v :: _ => some (shortestLoop s v v.length2)

section
variable [PyMath K] [Add K] [Mul K] [Div K] [Zero K] [BEq K] [LT K] [DecidableLT K]

/-- vector.py:611-618 `normalized`. -/
def normalized (eps : K) (s : Vecs K) : Py (Vecs K) := s.mapM (Vec2.normalized eps)

/-- vector.py:620-622 `normalize`: the list is replaced only after the comprehension succeeded. -/
def normalize (eps : K) (s : Vecs K) : Py Unit × Vecs K :=
  match s.mapM (Vec2.normalized eps) with
  | .error e => (.error e, s)
  | .ok s' => (.ok (), s')

/-- vector.py:635, 652: `min_length is not None and min_length < 0.0`. -/
def negMin (lo : Option K) : Bool := match lo with
  | some l => decide (l < 0)
  | none => false

/-- vector.py:624-640 `clamped`. -/
def clamped (eps : K) (s : Vecs K) (lo hi : Option K) : Py (Vecs K) :=
  if negMin lo then .error .valueError
  else s.mapM (fun v => v.clamped eps lo hi)

/-- vector.py:642-656 `clamp`. -/
def clamp (eps : K) (s : Vecs K) (lo hi : Option K) : Py Unit × Vecs K :=
  if negMin lo then (.error .valueError, s)
  else match s.mapM (fun v => v.clamped eps lo hi) with
    | .error e => (.error e, s)
    | .ok s' => (.ok (), s')
end

/-- Assigning the value of a comprehension to `self._vectors`: nothing changes if it raises. -/
def assign (s : Vecs K) : Py (Vecs K) → Py Unit × Vecs K
  | .error e => (.error e, s)
  | .ok s' => (.ok (), s')

/-- vector.py:658-681 `__add__`/`__radd__`. A scalar fails to unpack: TypeError after
NotImplemented. -/
def add [Add K] [Mul K] [One K] (s : Vecs K) : ArrArg K → Py (Vecs K)
  | .arr o => if s.length = o.length then .ok (List.zipWith (fun a b => a + b) s o)
      else .error .valueError
  | .vec v => let b := v.copy; .ok (s.map fun a => a + b)
  | .num _ => .error .typeError

/-- vector.py:683-699 `__iadd__`. -/
def iadd [Add K] [Mul K] [One K] (s : Vecs K) : ArrArg K → Py Unit × Vecs K
  | .arr o => if s.length = o.length then (.ok (), List.zipWith (fun a b => a + b) s o)
      else (.error .valueError, s)
  | .vec v => let b := v.copy; (.ok (), s.map fun a => a + b)
  | .num _ => (.error .typeError, s)

/-- vector.py:701-719 `__sub__`. -/
def sub [Sub K] [Mul K] [One K] (s : Vecs K) : ArrArg K → Py (Vecs K)
  | .arr o => if s.length = o.length then .ok (List.zipWith (fun a b => a - b) s o)
      else .error .valueError
  | .vec v => let b := v.copy; .ok (s.map fun a => a - b)
  | .num _ => .error .typeError

/-- vector.py:721-734 `__rsub__` of a sequence: `other - self`. -/
def rsub [Sub K] (s : Vecs K) (o : Vecs K) : Py (Vecs K) :=
  if s.length = o.length then .ok (List.zipWith (fun a b => b - a) s o) else .error .valueError

/-- vector.py:736-753 `__isub__`. -/
def isub [Sub K] [Mul K] [One K] (s : Vecs K) : ArrArg K → Py Unit × Vecs K
  | .arr o => if s.length = o.length then (.ok (), List.zipWith (fun a b => a - b) s o)
      else (.error .valueError, s)
  | .vec v => let b := v.copy; (.ok (), s.map fun a => a - b)
  | .num _ => (.error .typeError, s)

/-- vector.py:755-783 `__mul__`/`__rmul__`. -/
def mul [Mul K] [One K] (s : Vecs K) : ArrArg K → Py (Vecs K)
  | .arr o => if s.length = o.length then .ok (List.zipWith (fun a b => a.vmul b) s o)
      else .error .valueError
  | .vec v => let b := v.copy; .ok (s.map fun a => a.vmul b)
  | .num k => .ok (s.map fun a => a.smul k)

/-- vector.py:785-808 `__imul__` with an array, vector or scalar. -/
def imul [Mul K] [One K] (s : Vecs K) : ArrArg K → Py Unit × Vecs K
  | .arr o => if s.length = o.length then (.ok (), List.zipWith (fun a b => a.vmul b) s o)
      else (.error .valueError, s)
  | .vec v => let b := v.copy; (.ok (), s.map fun a => a.vmul b)
  | .num k => (.ok (), s.map fun a => a.smul k)

/-- vector.py:789-791 (and 503-509 for Seq2) `__imul__` with a transform. -/
def imulT [Add K] [Mul K] [Zero K] [One K] [BEq K] (s : Vecs K) (T : Affine K) : Py Unit × Vecs K :=
  (.ok (), T.itransform s)

/-- transform.py:260-267: `T * seq`, for a Seq2 or Vec2Array. -/
def transformed [Add K] [Mul K] [One K] (s : Vecs K) (T : Affine K) : Vecs K :=
  fromPoints (T.applyPts s)

/-- vector.py:810-832 `__truediv__`. -/
def truediv [Div K] [Mul K] [Zero K] [One K] [BEq K] (s : Vecs K) : ArrArg K → Py (Vecs K)
  | .arr o => if s.length = o.length then (s.zip o).mapM fun ab => ab.1.vdiv ab.2
      else .error .valueError
  | .vec v => let b := v.copy; s.mapM fun a => a.vdiv b
  | .num k => s.mapM fun a => a.sdiv k

/-- vector.py:834-846 `__rtruediv__` of a sequence. -/
def rtruediv [Div K] [Zero K] [BEq K] (s : Vecs K) (o : Vecs K) : Py (Vecs K) :=
  if s.length = o.length then (s.zip o).mapM fun ab => ab.2.vdiv ab.1 else .error .valueError

/-- vector.py:848-868 `__itruediv__`. -/
def itruediv [Div K] [Mul K] [Zero K] [One K] [BEq K] (s : Vecs K) : ArrArg K → Py Unit × Vecs K
  | .arr o => if s.length = o.length then assign s ((s.zip o).mapM fun ab => ab.1.vdiv ab.2)
      else (.error .valueError, s)
  | .vec v => let b := v.copy; assign s (s.mapM fun a => a.vdiv b)
  | .num k => assign s (s.mapM fun a => a.sdiv k)

/-- vector.py:870-892 `__floordiv__`. -/
def floordiv [PyMath K] [Mul K] [Zero K] [One K] [BEq K] (s : Vecs K) : ArrArg K → Py (Vecs K)
  | .arr o => if s.length = o.length then (s.zip o).mapM fun ab => ab.1.vfdiv ab.2
      else .error .valueError
  | .vec v => let b := v.copy; s.mapM fun a => a.vfdiv b
  | .num k => s.mapM fun a => a.sfdiv k

/-- vector.py:894-907 `__rfloordiv__` of a sequence. -/
def rfloordiv [PyMath K] [Zero K] [BEq K] (s : Vecs K) (o : Vecs K) : Py (Vecs K) :=
  if s.length = o.length then (s.zip o).mapM fun ab => ab.2.vfdiv ab.1 else .error .valueError

/-- vector.py:909-929 `__ifloordiv__`. -/
def ifloordiv [PyMath K] [Mul K] [Zero K] [One K] [BEq K] (s : Vecs K) : ArrArg K → Py Unit × Vecs K
  | .arr o => if s.length = o.length then assign s ((s.zip o).mapM fun ab => ab.1.vfdiv ab.2)
      else (.error .valueError, s)
  | .vec v => let b := v.copy; assign s (s.mapM fun a => a.vfdiv b)
  | .num k => assign s (s.mapM fun a => a.sfdiv k)

/-- vector.py:934-936 `__neg__`. -/
def neg [Neg K] (s : Vecs K) : Vecs K := s.map fun v => -v

/-- vector.py:511-519 `almost_equals` between sequences of the same class. -/
def almostEquals [Add K] [Sub K] [Mul K] [LT K] [DecidableLT K] (eps : K) (s o : Vecs K) : Bool :=
  s.length == o.length && (s.zip o).all fun ab => ab.1.almostEquals eps ab.2

/-- vector.py:521-523 `__eq__` between sequences of the same class (tuple comparison). -/
def eq [BEq K] (s o : Vecs K) : Bool := s == o

/-- vector.py:525-527 `__ne__` between sequences of the same class. -/
def ne [BEq K] (s o : Vecs K) : Bool := s != o

/-- vector.py:529-532 `__copy__`, `__deepcopy__`: a new list with the same items. -/
def copy (s : Vecs K) : Vecs K := fromPoints s

end Vec2Array
end Planar
