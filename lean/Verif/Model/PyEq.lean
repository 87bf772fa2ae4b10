import Verif.Model.Operators
import Verif.Model.Line
import Verif.Model.Box
/- `==`, `!=` and `hash` between objects of all classes: vectors, transforms, sequences, shapes, numbers, tuples, lists and
foreign objects. -/
namespace Planar
variable {K : Type}

/-- Exceptions of `other[0]`, `other[1]`, `len(other)`. -/
inductive ItemErr where
  | indexError | typeError | keyError
  deriving DecidableEq, Repr

/-- A Python object. `foreign` is an object of any other class: it has an identity, and `[0]`, `[1]`, `len()` answer as
given (an item is `some k` for the number `k`, `none` for something that equals no number); its own `==` is assumed to
leave comparisons with the other objects to them, as those of `dict`, `range`, `bytes` and `str` do, and to be identity
among foreign objects. -/
inductive Obj (K : Type) where
  | num (k : K)
  | vec (v : Vec2 K)
  | affine (T : Affine K)
  | tuple (items : List (Obj K))
  | list (items : List (Obj K))
  | seq (c : SeqCls) (vs : List (Vec2 K))
  | box (b : Box K)
  | line (l : Line K)
  | ray (r : Ray K)
  | segment (s : LineSegment K)
  | foreign (id : Nat) (item0 item1 : Except ItemErr (Option K)) (len : Except ItemErr Nat)

namespace Obj

/-- An item as a number. -/
def asNum : Obj K → Option K
  | .num k => some k
  | _ => none

/-- Item `i` of a Python list or tuple, as a number. -/
def itemOf (items : List (Obj K)) (i : Nat) : Except ItemErr (Option K) :=
  match items[i]? with
  | some o => .ok o.asNum
  | none => .error .indexError

section
variable [Zero K] [One K]

/-- The items of a transform, transform.py:36-70: a tuple of nine numbers. -/
def affineItems (T : Affine K) : List (Obj K) :=
  [.num T.a, .num T.b, .num T.c, .num T.d, .num T.e, .num T.f, .num 0, .num 0, .num 1]

/-- `other[i]` for `i` 0 or 1. -/
def item (o : Obj K) (i : Nat) : Except ItemErr (Option K) :=
  match o with
  | .vec v => itemOf [.num v.x, .num v.y] i
  | .affine T => itemOf (affineItems T) i
  | .tuple l => itemOf l i
  | .list l => itemOf l i
  | .seq _ vs => itemOf (vs.map .vec) i
  | .foreign _ a b _ => if i = 0 then a else b
  | _ => .error .typeError

/-- `len(other)`. -/
def len : Obj K → Except ItemErr Nat
  | .vec _ => .ok 2
  | .affine _ => .ok 9
  | .tuple l => .ok l.length
  | .list l => .ok l.length
  | .seq _ vs => .ok vs.length
  | .foreign _ _ _ n => n
  | _ => .error .typeError

variable [BEq K]

/-- number == item -/
def numEq (k : K) : Option K → Bool
  | some m => k == m
  | none => false

/-- vector.py:291-292, the expression inside the `try` of `Vec2.__eq__`. -/
def vecEqTry (v : Vec2 K) (o : Obj K) : Except ItemErr Bool := do
  let a ← o.item 0
  if numEq v.x a then
    let b ← o.item 1
    if numEq v.y b then
      let n ← o.len
      pure (n == 2)
    else pure false
  else pure false

/-- vector.py:298-299, the expression inside the `try` of `Vec2.__ne__`. -/
def vecNeTry (v : Vec2 K) (o : Obj K) : Except ItemErr Bool := do
  let a ← o.item 0
  if !numEq v.x a then pure true
  else
    let b ← o.item 1
    if !numEq v.y b then pure true
    else
      let n ← o.len
      pure (n != 2)

/-- `except (TypeError, IndexError): return dflt`, vector.py:293, 300. -/
def catching (dflt : Bool) : Except ItemErr Bool → Except ItemErr Bool
  | .error .typeError => .ok dflt
  | .error .indexError => .ok dflt
  | r => r

/-- vector.py:289-294 `Vec2.__eq__` with any object. -/
def vecEq (v : Vec2 K) (o : Obj K) : Except ItemErr Bool := catching false (vecEqTry v o)

/-- vector.py:296-301 `Vec2.__ne__` with any object. -/
def vecNe (v : Vec2 K) (o : Obj K) : Except ItemErr Bool := catching true (vecNeTry v o)

/-- `==` between numbers and the items of a tuple: CPython compares items until two differ, then the lengths. -/
def numsEq : List K → List (Obj K) → Bool
  | [], [] => true
  | k :: ks, o :: os => numEq k o.asNum && numsEq ks os
  | _, _ => false

/-- The numbers of a transform. -/
def affineNums (T : Affine K) : List K := [T.a, T.b, T.c, T.d, T.e, T.f, 0, 0, 1]

variable [PyMath K] [Add K] [Sub K] [Mul K] [Div K]

mutual
/-- `a == b`. Python asks the class of `b` first if it is a subclass of the class of `a` (a tuple and a Vec2 or Affine, a
Seq2 and a Vec2Array or Polygon), else the class of `a`; the other one if the answer is NotImplemented; if both have no
answer the objects are compared by identity.
* Vec2 (vector.py:289-294) answers for every object;
* tuples (and Affine, which inherits `tuple.__eq__`) answer for tuples, lists for lists, numbers for numbers;
* Seq2, Vec2Array (vector.py:521-523), BoundingBox (box.py:224-227), Line, Ray, LineSegment (line.py:212-215, 366-369,
  609-612) answer for every object: False unless the class is the same; Polygon (polygon.py:441-498) likewise. -/
def eq : Obj K → Obj K → Except ItemErr Bool
  | .vec v, o => vecEq v o
  | .tuple l, o => match o with
    | .vec v => vecEq v (.tuple l)
    | .tuple m => eqItems l m
    | .affine T => .ok (numsEq (affineNums T) l)
    | _ => .ok false
  | .affine T, o => match o with
    | .tuple m => .ok (numsEq (affineNums T) m)
    | .affine U => .ok (numsEq (affineNums T) (affineItems U))
    | .vec v => .ok (numsEq (affineNums T) [.num v.x, .num v.y])
    | _ => .ok false
  | .list l, o => match o with
    | .vec v => vecEq v (.list l)
    | .list m => if l.length = m.length then eqItems l m else .ok false
    | _ => .ok false
  | .num k, o => match o with
    | .vec v => vecEq v (.num k)
    | .num m => .ok (k == m)
    | _ => .ok false
  | .seq c vs, o => match o with
    | .seq d ws => .ok (decide (c = d) && (if c = .polygon then (Polygon.fromPoints vs).eq (Polygon.fromPoints ws) else vs == ws))
    | _ => .ok false
  | .box b, o => match o with
    | .box c => .ok (b == c)
    | _ => .ok false
  | .line l, o => match o with
    | .line m => .ok (l == m)
    | _ => .ok false
  | .ray r, o => match o with
    | .ray q => .ok (r == q)
    | _ => .ok false
  | .segment s, o => match o with
    | .segment t => .ok (s == t)
    | _ => .ok false
  | .foreign i a b n, o => match o with
    | .vec v => vecEq v (.foreign i a b n)
    | .foreign j _ _ _ => .ok (i == j)
    | _ => .ok false
/-- Items one after the other until two differ, then the lengths (CPython's tuple and list comparison). -/
def eqItems : List (Obj K) → List (Obj K) → Except ItemErr Bool
  | [], m => .ok m.isEmpty
  | a :: l, m => match m with
    | [] => .ok false
    | b :: m => match eq a b with
      | .ok true => eqItems l m
      | r => r
end

/-- `a != b`: Vec2 has its own method (vector.py:296-301); the others are negations of the comparison for equality
(vector.py:525-527, box.py:229-230, line.py:217-218, 371-372, 614-615, polygon.py:500-501, CPython's tuples, lists,
numbers). The order of asking is that of `==`. -/
def ne (a b : Obj K) : Except ItemErr Bool :=
  match a, b with
  | .vec v, o => vecNe v o
  | .tuple l, .vec v => vecNe v (.tuple l)
  | .list l, .vec v => vecNe v (.list l)
  | .num k, .vec v => vecNe v (.num k)
  | .foreign i x y n, .vec v => vecNe v (.foreign i x y n)
  | a, b => (eq a b).map not

end

/-- How Python hashes: numbers, tuples from the hashes of their items, foreign objects as they like (`none`: unhashable). -/
structure Hashing (K : Type) where
  num : K → Int
  tuple : List Int → Int
  foreign : Nat → Option Int

mutual
/-- `hash(o)`, `none` for TypeError. Vec2 and Affine: `tuple.__hash__` (vector.py:469, transform.py:323). Seq2 and
Vec2Array raise TypeError (vector.py:537-538); Polygon, BoundingBox, Line, Ray, LineSegment define `__eq__` without
`__hash__` and are unhashable. -/
def hash [Zero K] [One K] (H : Hashing K) : Obj K → Option Int
  | .num k => some (H.num k)
  | .vec v => some (H.tuple [H.num v.x, H.num v.y])
  | .affine T => some (H.tuple ((affineNums T).map H.num))
  | .tuple l => (hashes H l).map H.tuple
  | .foreign i _ _ _ => H.foreign i
  | _ => none
/-- The hashes of the items of a tuple. -/
def hashes [Zero K] [One K] (H : Hashing K) : List (Obj K) → Option (List Int)
  | [] => some []
  | o :: l => match hash H o, hashes H l with
    | some h, some hs => some (h :: hs)
    | _, _ => none
end

/-- A Python dict as the list of its entries in order of insertion. -/
abbrev Dict (K : Type) (V : Type) := List (Obj K × V)

section
variable {V : Type} [PyMath K] [Add K] [Sub K] [Mul K] [Div K] [Zero K] [One K] [BEq K]

/-- Does the stored key `k` answer for the key `a`? CPython: the same hash, and `==`. -/
def sameKey (H : Hashing K) (k a : Obj K) : Bool :=
  hash H k == hash H a && (match eq k a with | .ok b => b | .error _ => false)

/-- `d[a]`: the value of the first entry whose key answers for `a`, `none` for KeyError. -/
def Dict.get (H : Hashing K) (d : Dict K V) (a : Obj K) : Option V :=
  (d.find? fun e => sameKey H e.1 a).map Prod.snd

/-- `d[a] = v`: the entry whose key answers for `a` gets a new value (and keeps its key), or a new entry is appended. -/
def Dict.set (H : Hashing K) : Dict K V → Obj K → V → Dict K V
  | [], a, v => [(a, v)]
  | e :: d, a, v => if sameKey H e.1 a then (e.1, v) :: d else e :: Dict.set H d a v

end
end Obj
end Planar
