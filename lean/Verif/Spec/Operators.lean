import Verif.Model.Operators
/- Specification of C71: which operators are supported between which kinds of values, and the class of the result
(documentation of Vec2, Vec2Array and Affine, vector.py:339-930, transform.py:242-288). -/
namespace Planar.Spec
variable {K : Type}

/-- The class of a value. -/
inductive Cls where
  | vec | affine | tup | seq (c : SeqCls)
  deriving DecidableEq, Repr

/-- The class of a result; nested vectors (a `Vec2` of vectors) have no proper class. -/
def clsOf : Value K → Option Cls
  | .vec _ => some .vec
  | .affine _ => some .affine
  | .tup _ => some .tup
  | .seq c _ => some (.seq c)
  | _ => none

/-- At least one operand is an object of planar. -/
def Ours : Operand K → Operand K → Prop
  | .num _, .num _ => False
  | .num _, .tup _ => False
  | .tup _, .num _ => False
  | .tup _, .tup _ => False
  | _, _ => True

/-- `c` if the condition holds. -/
def whenC (p : Prop) [Decidable p] (c : Cls) : Option Cls := if p then some c else none

/-- The supported combinations and the class of the result; `none`: not supported, TypeError. A number scales
(`*`, `/`, `//`) but cannot be added; a pair of numbers counts as a vector; an array adds and multiplies with any
sequence of the same length, giving the class of the other one, and can be subtracted from or divided into any
sequence; a transform multiplies everything from either side. -/
def expected (op : BinOp) : Operand K → Operand K → Option Cls
  | .vec _, .vec _ => some .vec
  | .vec _, .num _ => whenC (op ≠ .add ∧ op ≠ .sub) .vec
  | .num _, .vec _ => whenC (op ≠ .add ∧ op ≠ .sub) .vec
  | .vec _, .tup ks => whenC (ks.length = 2) .vec
  | .tup ks, .vec _ => whenC (ks.length = 2 ∧ op ≠ .add ∧ op ≠ .sub) .vec
  | .seq .array _, .vec _ => some (.seq .array)
  | .vec _, .seq .array _ => whenC (op = .add ∨ op = .mul) (.seq .array)
  | .seq .array _, .num _ => whenC (op ≠ .add ∧ op ≠ .sub) (.seq .array)
  | .num _, .seq .array _ => whenC (op = .mul) (.seq .array)
  | .seq .array _, .tup ks => whenC (ks.length = 2) (.seq .array)
  | .tup ks, .seq .array _ => whenC (ks.length = 2 ∧ (op = .add ∨ op = .mul)) (.seq .array)
  | .seq c _, .seq .array _ => some (.seq c)
  | .seq .array _, .seq d _ => whenC (op = .add ∨ op = .mul) (.seq d)
  | .affine _, .affine _ => whenC (op = .mul) .affine
  | .affine _, .vec _ => whenC (op = .mul) .vec
  | .vec _, .affine _ => whenC (op = .mul) .vec
  | .affine _, .tup ks => whenC (op = .mul ∧ ks.length = 2) .vec
  | .tup ks, .affine _ => whenC (op = .mul ∧ ks.length = 2) .vec
  | .affine _, .seq c _ => whenC (op = .mul) (.seq c)
  | .seq c _, .affine _ => whenC (op = .mul) (.seq c)
  | _, _ => none

/-- The accidents of duck typing: a sequence of exactly two vectors unpacks like a vector, and tuples concatenate. -/
def Accident (op : BinOp) : Operand K → Operand K → Prop
  | .vec _, .seq _ o => o.length = 2
  | .seq c o, .vec _ => c ≠ .array ∧ o.length = 2 ∧ op ≠ .add ∧ op ≠ .sub
  | .seq .array _, .seq d o => d ≠ .array ∧ o.length = 2 ∧ op ≠ .add ∧ op ≠ .mul
  | .tup _, .vec _ => op = .add
  | .tup _, .affine _ => op = .add
  | _, _ => False

/-- Both are sequences and their lengths differ. -/
def LengthsDiffer : Operand K → Operand K → Prop
  | .seq _ s, .seq _ o => s.length ≠ o.length
  | _, _ => False

/-- A zero occurs in the operand. -/
def HasZero [Zero K] : Operand K → Prop
  | .num k => k = 0
  | .tup ks => (0 : K) ∈ ks
  | .vec v => v.x = 0 ∨ v.y = 0
  | .seq _ vs => ∃ v ∈ vs, v.x = 0 ∨ v.y = 0
  | .affine _ => False

/-- The operation returns a value of class `c`, or it is a division, a zero occurs in the right operand, and
ZeroDivisionError is raised. -/
def Gives [Zero K] (op : BinOp) (r : Operand K) (c : Cls) (x : Py (Value K)) : Prop :=
  (∃ v, x = .ok v ∧ clsOf v = some c) ∨
  (x = .error .zeroDivisionError ∧ (op = .truediv ∨ op = .floordiv) ∧ HasZero r)

/-- The number of items the result has when one operand is a sequence. -/
def count : Operand K → Operand K → Nat
  | .seq _ s, _ => s.length
  | _, .seq _ s => s.length
  | _, _ => 0

/-- What the operand contributes to item `i` of the result: a sequence its own item, a pair of numbers the vector with
these coordinates, everything else itself. -/
def item (i : Nat) : Operand K → Option (Operand K)
  | .seq _ vs => vs[i]?.map .vec
  | .tup [x, y] => some (.vec ⟨x, y⟩)
  | o => some o

end Planar.Spec
