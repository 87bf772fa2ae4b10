import Verif.Model.Num
/- Model of class Vec2, /repo/planar/vector.py:39-472, and of
`cos_sin_deg`, /repo/planar/util.py:39-52. -/
namespace Planar

/-- util.py:39-52 `cos_sin_deg`. Literals such as 360 are built with `PyMath.ofInt`. -/
def cosSinDeg {K : Type} [PyMath K] [Zero K] [One K] [Neg K] [BEq K] (deg : K) : K × K :=
  let deg := PyMath.fmod deg (PyMath.ofInt 360)
  if deg == PyMath.ofInt 90 then (0, 1)
  else if deg == PyMath.ofInt 180 then (-1, 0)
  else if deg == PyMath.ofInt 270 then (0, -1)
  else
    let rad := PyMath.radians deg
    (PyMath.cos rad, PyMath.sin rad)

/-- vector.py:39-49: a pair of numbers (the tuple itself). -/
structure Vec2 (K : Type) where
  x : K
  y : K
  deriving Repr

namespace Vec2
variable {K : Type}

/-- vector.py:48-49 `Vec2.__new__`: both arguments are multiplied by 1.0. -/
def mk' [Mul K] [One K] (x y : K) : Vec2 K := ⟨x * 1, y * 1⟩

/-- The expression `planar.Vec2(*p)` for a point argument `p`. -/
def copy [Mul K] [One K] (p : Vec2 K) : Vec2 K := mk' p.x p.y

/-- vector.py:472 `null`. -/
def null [Zero K] : Vec2 K := ⟨0, 0⟩

/-- vector.py:51-64 `Vec2.polar`. The write to `__dict__['length']` is not observable: `length` is a
property (a data descriptor) and wins over the instance dict. -/
def polar [PyMath K] [Zero K] [One K] [Neg K] [Mul K] [BEq K] (angle length : K) : Vec2 K :=
  let c := cosSinDeg angle
  ⟨c.1 * length, c.2 * length⟩

/-- vector.py:89-93 `length2`. -/
def length2 [Add K] [Mul K] (v : Vec2 K) : K := v.x * v.x + v.y * v.y

/-- vector.py:84-87 `length`. -/
def length [PyMath K] [Add K] [Mul K] (v : Vec2 K) : K := PyMath.sqrt v.length2

/-- vector.py:95-101 `is_null`. -/
def isNull [Add K] [Mul K] [LT K] [DecidableLT K] (eps : K) (v : Vec2 K) : Bool :=
  v.length2 < eps2 eps

/-- vector.py:103-105 `__bool__`. -/
def truthy [Zero K] [BEq K] (v : Vec2 K) : Bool := v.x != 0 || v.y != 0

/-- vector.py:107-117 `almost_equals`. -/
def almostEquals [Add K] [Sub K] [Mul K] [LT K] [DecidableLT K] (eps : K) (v o : Vec2 K) : Bool :=
  let dx := v.x - o.x
  let dy := v.y - o.y
  (dx * dx + dy * dy) < eps2 eps

/-- vector.py:119-131 `normalized`. -/
def normalized [PyMath K] [Add K] [Mul K] [Div K] [Zero K] [BEq K] [LT K] [DecidableLT K]
    (eps : K) (v : Vec2 K) : Py (Vec2 K) :=
  let L := v.length
  if L > eps then do
    let x ← pydiv v.x L
    let y ← pydiv v.y L
    return ⟨x, y⟩
  else .ok null

/-- vector.py:133-138 `perpendicular`. -/
def perpendicular [Neg K] (v : Vec2 K) : Vec2 K := ⟨-v.y, v.x⟩

/-- vector.py:140-148 `dot`. -/
def dot [Add K] [Mul K] (v o : Vec2 K) : K := v.x * o.x + v.y * o.y

/-- vector.py:150-159 `cross`. -/
def cross [Sub K] [Mul K] (v o : Vec2 K) : K := v.x * o.y - v.y * o.x

/-- vector.py:161-166 `angle`. -/
def angle [PyMath K] (v : Vec2 K) : K := PyMath.degrees (PyMath.atan2 v.y v.x)

/-- vector.py:168-176 `angle_to`. -/
def angleTo [PyMath K] [Sub K] (v o : Vec2 K) : K := o.angle - v.angle

/-- vector.py:178-186 `distance_to`. -/
def distanceTo [PyMath K] [Sub K] (v o : Vec2 K) : K := PyMath.hypot (v.x - o.x) (v.y - o.y)

/-- vector.py:188-197 `rotated`. -/
def rotated [PyMath K] [Zero K] [One K] [Neg K] [Add K] [Sub K] [Mul K] [BEq K]
    (v : Vec2 K) (angle : K) : Vec2 K :=
  let cs := cosSinDeg angle
  ⟨v.x * cs.1 - v.y * cs.2, v.x * cs.2 + v.y * cs.1⟩

/-- vector.py:199-216 `scaled_to`. -/
def scaledTo [PyMath K] [Add K] [Mul K] [Div K] [Zero K] [BEq K] [LT K] [DecidableLT K]
    (eps : K) (v : Vec2 K) (length : K) : Py (Vec2 K) :=
  let L := v.length
  if L > eps then do
    let s ← pydiv length L
    return ⟨v.x * s, v.y * s⟩
  else .ok null

/-- vector.py:218-230 `project`. -/
def project [Add K] [Mul K] [Div K] [Zero K] [BEq K] [LT K] [DecidableLT K]
    (eps : K) (v o : Vec2 K) : Py (Vec2 K) :=
  let L := v.length2
  if L > eps2 eps then do
    let s ← pydiv (v.dot o) L
    return ⟨v.x * s, v.y * s⟩
  else .ok null

/-- vector.py:232-246 `reflect`. The literal 2 is `1 + 1`. -/
def reflect [Add K] [Sub K] [Mul K] [Div K] [Zero K] [One K] [BEq K] [LT K] [DecidableLT K]
    (eps : K) (v o : Vec2 K) : Py (Vec2 K) :=
  let L := o.x * o.x + o.y * o.y
  if L > eps2 eps then do
    let temp ← pydiv ((1 + 1) * (v.x * o.x + v.y * o.y)) L
    return ⟨o.x * temp - v.x, o.y * temp - v.y⟩
  else .ok null

/-- vector.py:248-270 `clamped`; `none` is Python's `None`. -/
def clamped [PyMath K] [Add K] [Mul K] [Div K] [Zero K] [BEq K] [LT K] [DecidableLT K]
    (eps : K) (v : Vec2 K) (minLength maxLength : Option K) : Py (Vec2 K) :=
  let bad := match minLength, maxLength with
    | some lo, some hi => decide (lo > hi)
    | _, _ => false
  if bad then .error .valueError
  else do
    let L2 := v.length2
    let small ← match minLength with
      | some lo => (pysq lo).map fun q => decide (L2 < q)
      | none => .ok false
    if small then v.scaledTo eps (minLength.getD 0)
    else
      let large ← match maxLength with
        | some hi => (pysq hi).map fun q => decide (L2 > q)
        | none => .ok false
      if large then v.scaledTo eps (maxLength.getD 0)
      else .ok v

/-- vector.py:272-287 `lerp`. -/
def lerp [Add K] [Sub K] [Mul K] [One K] (v o : Vec2 K) (bias : K) : Vec2 K :=
  let b1 := 1 - bias
  ⟨v.x * b1 + o.x * bias, v.y * b1 + o.y * bias⟩

/-- vector.py:289-294 `__eq__` against a sequence of numbers of any length
(`IndexError` from a short sequence is caught and gives False). -/
def eqSeq [BEq K] (v : Vec2 K) (o : List K) : Bool :=
  match o with
  | [] => false
  | [a] => if v.x == a then false else false
  | a :: b :: _ => v.x == a && v.y == b && o.length == 2

/-- vector.py:296-301 `__ne__` against a sequence of numbers of any length. -/
def neSeq [BEq K] (v : Vec2 K) (o : List K) : Bool :=
  match o with
  | [] => true
  | [a] => if v.x != a then true else true
  | a :: b :: _ => v.x != a || v.y != b || o.length != 2

/-- The tuple of a vector, as a sequence. -/
def toList (v : Vec2 K) : List K := [v.x, v.y]

/-- vector.py:289-294 `__eq__` between vectors. -/
instance [BEq K] : BEq (Vec2 K) := ⟨fun a b => a.eqSeq b.toList⟩

/-- vector.py:303-310 `__gt__`. -/
def gt [Add K] [Mul K] [LT K] [DecidableLT K] (v o : Vec2 K) : Bool := v.length2 > o.length2
/-- vector.py:312-319 `__ge__`. -/
def ge [Add K] [Mul K] [LE K] [DecidableLE K] (v o : Vec2 K) : Bool := v.length2 ≥ o.length2
/-- vector.py:321-328 `__lt__`. -/
def lt [Add K] [Mul K] [LT K] [DecidableLT K] (v o : Vec2 K) : Bool := v.length2 < o.length2
/-- vector.py:330-337 `__le__`. -/
def le [Add K] [Mul K] [LE K] [DecidableLE K] (v o : Vec2 K) : Bool := v.length2 ≤ o.length2

/-- vector.py:339-351 `__add__`, `__iadd__` with a vector. -/
instance [Add K] : Add (Vec2 K) := ⟨fun v o => ⟨v.x + o.x, v.y + o.y⟩⟩
/-- vector.py:353-365 `__sub__`, `__isub__` with a vector. -/
instance [Sub K] : Sub (Vec2 K) := ⟨fun v o => ⟨v.x - o.x, v.y - o.y⟩⟩
/-- vector.py:461-463 `__neg__`. -/
instance [Neg K] : Neg (Vec2 K) := ⟨fun v => ⟨-v.x, -v.y⟩⟩

/-- vector.py:367-376 and 384-385 `__mul__`/`__rmul__` by a scalar. -/
def smul [Mul K] (v : Vec2 K) (k : K) : Vec2 K := ⟨v.x * k, v.y * k⟩
/-- vector.py:377-385 `__mul__`/`__rmul__` by a vector. -/
def vmul [Mul K] (v o : Vec2 K) : Vec2 K := ⟨v.x * o.x, v.y * o.y⟩
/-- vector.py:387-396 `__truediv__` by a scalar. -/
def sdiv [Div K] [Zero K] [BEq K] (v : Vec2 K) (k : K) : Py (Vec2 K) := do
  let x ← pydiv v.x k
  let y ← pydiv v.y k
  return ⟨x, y⟩
/-- vector.py:397-404 `__truediv__` by a vector. -/
def vdiv [Div K] [Zero K] [BEq K] (v o : Vec2 K) : Py (Vec2 K) := do
  let x ← pydiv v.x o.x
  let y ← pydiv v.y o.y
  return ⟨x, y⟩
/-- vector.py:406-414 `__rtruediv__` of a scalar. -/
def rsdiv [Div K] [Zero K] [BEq K] (v : Vec2 K) (k : K) : Py (Vec2 K) := do
  let x ← pydiv k v.x
  let y ← pydiv k v.y
  return ⟨x, y⟩
/-- vector.py:422-431 `__floordiv__` by a scalar. -/
def sfdiv [PyMath K] [Zero K] [BEq K] (v : Vec2 K) (k : K) : Py (Vec2 K) := do
  let x ← pyfdiv v.x k
  let y ← pyfdiv v.y k
  return ⟨x, y⟩
/-- vector.py:432-439 `__floordiv__` by a vector. -/
def vfdiv [PyMath K] [Zero K] [BEq K] (v o : Vec2 K) : Py (Vec2 K) := do
  let x ← pyfdiv v.x o.x
  let y ← pyfdiv v.y o.y
  return ⟨x, y⟩
/-- vector.py:441-450 `__rfloordiv__` of a scalar. -/
def rsfdiv [PyMath K] [Zero K] [BEq K] (v : Vec2 K) (k : K) : Py (Vec2 K) := do
  let x ← pyfdiv k v.x
  let y ← pyfdiv k v.y
  return ⟨x, y⟩
/-- vector.py:465-467 `__abs__`. -/
def abs [PyMath K] [Add K] [Mul K] (v : Vec2 K) : K := v.length

end Vec2
end Planar
