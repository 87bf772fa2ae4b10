/-
Numbers, exceptions and the few Python built-ins the code uses.

Everything is polymorphic in the number type `K` and mentions only the notation
classes for the operations the Python code applies to its numbers.
-/
namespace Planar

/-- Exceptions the modelled code can raise.
`nameError` is the UnboundLocalError of a variable read before assignment,
`notInvertible` is `planar.TransformNotInvertibleError` (planar/__init__.py:47-48). -/
inductive PyErr where
  | valueError | typeError | indexError | zeroDivisionError | nameError
  | notInvertible | overflowError
  deriving DecidableEq, Repr

/-- Result of a Python computation that may raise. -/
abbrev Py (α : Type) := Except PyErr α

/-- The `math` functions and float operators used by planar (vector.py, transform.py,
util.py, polygon.py). `sqrt` stands for `x ** 0.5`, `sq` for `x ** 2` (`none`: the result is too large for
a float, OverflowError), `fmod` for the `%` operator on floats, `fdiv` for `//`. -/
class PyMath (K : Type) where
  sqrt : K → K
  sq : K → Option K
  hypot : K → K → K
  cos : K → K
  sin : K → K
  tan : K → K
  atan2 : K → K → K
  radians : K → K
  degrees : K → K
  fmod : K → K → K
  fdiv : K → K → K
  ofInt : Int → K

variable {K : Type}

/-- Python `/` on floats: raises ZeroDivisionError for a zero divisor. -/
def pydiv [Div K] [Zero K] [BEq K] (a b : K) : Py K :=
  if b == 0 then .error .zeroDivisionError else .ok (a / b)

/-- Python `//` on floats: raises ZeroDivisionError for a zero divisor. -/
def pyfdiv [PyMath K] [Zero K] [BEq K] (a b : K) : Py K :=
  if b == 0 then .error .zeroDivisionError else .ok (PyMath.fdiv a b)

/-- Python `x ** 2` on floats (vector.py:266, 268 and __init__.py:73): unlike `x * x` it raises OverflowError when the
result is too large. -/
def pysq [PyMath K] (x : K) : Py K :=
  match PyMath.sq x with
  | some q => .ok q
  | none => .error .overflowError

/-- Python `abs` on numbers. -/
def pyabs [Neg K] [Zero K] [LT K] [DecidableLT K] (a : K) : K := if a < 0 then -a else a

/-- Python `min(a, b)`: `b` only if it is strictly smaller. -/
def pymin [LT K] [DecidableLT K] (a b : K) : K := if b < a then b else a

/-- Python `max(a, b)`: `b` only if it is strictly greater. -/
def pymax [LT K] [DecidableLT K] (a b : K) : K := if a < b then b else a

/-- `planar.EPSILON2` is kept equal to `EPSILON**2` by `set_epsilon`
(planar/__init__.py:58-76). -/
abbrev eps2 [Mul K] (eps : K) : K := eps * eps

/-- Position in a list of length `n` denoted by the Python index `i`, if any:
negative indices count from the end. -/
def pyIndex (n : Nat) (i : Int) : Option Nat :=
  if 0 ≤ i then (if i.toNat < n then some i.toNat else none)
  else (if (-i).toNat ≤ n then some (n - (-i).toNat) else none)

/-- Python `l[i]` for a list. -/
def pyGet {α : Type} (l : List α) (i : Int) : Py α :=
  match pyIndex l.length i with
  | some k => match l[k]? with
    | some a => .ok a
    | none => .error .indexError
  | none => .error .indexError

/-- Python `l[i] = a` for a list. -/
def pySet {α : Type} (l : List α) (i : Int) (a : α) : Py (List α) :=
  match pyIndex l.length i with
  | some k => .ok (l.set k a)
  | none => .error .indexError

end Planar
