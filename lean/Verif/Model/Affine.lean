import Verif.Model.Vec2
/- Model of class Affine, /repo/planar/transform.py:36-326. -/
namespace Planar

/-- transform.py:36-58: the first two rows of the matrix. The third row is the constant
`(0, 0, 1)` in every object the code builds and is left out. -/
structure Affine (K : Type) where
  a : K
  b : K
  c : K
  d : K
  e : K
  f : K
  deriving Repr

namespace Affine
variable {K : Type}

/-- transform.py:52-58 `Affine.__new__` with six numbers: each is multiplied by 1.0. -/
def mk' [Mul K] [One K] (a b c d e f : K) : Affine K := ⟨a*1, b*1, c*1, d*1, e*1, f*1⟩

/-- transform.py:52-58 `Affine.__new__` with any number of arguments. -/
def new [Mul K] [One K] (members : List K) : Py (Affine K) :=
  match members with
  | [a, b, c, d, e, f] => .ok (mk' a b c d e f)
  | _ => .error .typeError

/-- transform.py:326 `identity` and 60-66 `Affine.identity()`. -/
def identity [Mul K] [Zero K] [One K] : Affine K := mk' 1 0 0 0 1 0

/-- transform.py:68-80 `translation`. -/
def translation [Zero K] [One K] (o : Vec2 K) : Affine K := ⟨1, 0, o.x, 0, 1, o.y⟩

/-- transform.py:82-99 `scale` with a vector. -/
def scaleV [Zero K] (s : Vec2 K) : Affine K := ⟨s.x, 0, 0, 0, s.y, 0⟩

/-- transform.py:82-99 `scale` with a scalar. -/
def scaleS [Zero K] (s : K) : Affine K := ⟨s, 0, 0, 0, s, 0⟩

/-- transform.py:101-116 `shear`. -/
def shear [PyMath K] [Zero K] [One K] (xAngle yAngle : K) : Affine K :=
  let sx := PyMath.tan (PyMath.radians xAngle)
  let sy := PyMath.tan (PyMath.radians yAngle)
  ⟨1, sy, 0, sx, 1, 0⟩

/-- transform.py:118-141 `rotation`; `none` is the omitted pivot. -/
def rotation [PyMath K] [Zero K] [One K] [Neg K] [Add K] [Sub K] [Mul K] [BEq K]
    (angle : K) (pivot : Option (Vec2 K)) : Affine K :=
  let cs := cosSinDeg angle
  let ca := cs.1
  let sa := cs.2
  match pivot with
  | none => ⟨ca, sa, 0, -sa, ca, 0⟩
  | some p => ⟨ca, sa, p.x - p.x*ca + p.y*sa, -sa, ca, p.y - p.x*sa - p.y*ca⟩

/-- transform.py:154-161 `determinant`. -/
def determinant [Sub K] [Mul K] (T : Affine K) : K := T.a*T.e - T.b*T.d

/-- transform.py:216-227 `almost_equals`: the loop over the six entries, False at the first
entry that differs by at least EPSILON. -/
def almostEquals [Sub K] [Neg K] [Zero K] [LT K] [LE K] [DecidableLT K] [DecidableLE K]
    (eps : K) (T o : Affine K) : Bool :=
  if pyabs (T.a - o.a) ≥ eps then false
  else if pyabs (T.b - o.b) ≥ eps then false
  else if pyabs (T.c - o.c) ≥ eps then false
  else if pyabs (T.d - o.d) ≥ eps then false
  else if pyabs (T.e - o.e) ≥ eps then false
  else if pyabs (T.f - o.f) ≥ eps then false
  else true

/-- transform.py:163-168 `is_identity`; `isIdObj` tells whether the object is the module-level
`identity` object itself (`self is identity`). -/
def isIdentity [Mul K] [Sub K] [Neg K] [Zero K] [One K] [LT K] [LE K] [DecidableLT K] [DecidableLE K]
    (eps : K) (isIdObj : Bool) (T : Affine K) : Bool :=
  isIdObj || T.almostEquals eps identity

/-- transform.py:170-178 `is_rectilinear`. -/
def isRectilinear [Neg K] [Zero K] [LT K] [DecidableLT K] (eps : K) (T : Affine K) : Bool :=
  (pyabs T.a < eps && pyabs T.e < eps) || (pyabs T.d < eps && pyabs T.b < eps)

/-- transform.py:180-187 `is_conformal`. -/
def isConformal [Add K] [Mul K] [Neg K] [Zero K] [LT K] [DecidableLT K] (eps : K) (T : Affine K) :
    Bool :=
  pyabs (T.a*T.b + T.d*T.e) < eps

/-- transform.py:189-200 `is_orthonormal`. -/
def isOrthonormal [Add K] [Sub K] [Mul K] [Neg K] [Zero K] [One K] [LT K] [DecidableLT K]
    (eps : K) (T : Affine K) : Bool :=
  T.isConformal eps && pyabs (1 - (T.a*T.a + T.d*T.d)) < eps
    && pyabs (1 - (T.b*T.b + T.e*T.e)) < eps

/-- transform.py:202-208 `is_degenerate`. -/
def isDegenerate [Sub K] [Mul K] [Neg K] [Zero K] [LT K] [DecidableLT K] (eps : K) (T : Affine K) :
    Bool :=
  pyabs T.determinant < eps

/-- transform.py:210-214 `column_vectors`. -/
def columnVectors [Mul K] [One K] (T : Affine K) : Vec2 K × Vec2 K × Vec2 K :=
  (Vec2.mk' T.a T.d, Vec2.mk' T.b T.e, Vec2.mk' T.c T.f)

/-- transform.py:253-259 `__mul__` with another transform. -/
def mul [Add K] [Mul K] (s o : Affine K) : Affine K :=
  ⟨s.a*o.a + s.b*o.d, s.a*o.b + s.b*o.e, s.a*o.c + s.b*o.f + s.c,
   s.d*o.a + s.e*o.d, s.d*o.b + s.e*o.e, s.d*o.c + s.e*o.f + s.f⟩

instance [Add K] [Mul K] : Mul (Affine K) := ⟨mul⟩

/-- transform.py:270-275 `__mul__` with a vector (and 277-282 `__rmul__`). -/
def apply [Add K] [Mul K] [One K] (T : Affine K) (v : Vec2 K) : Vec2 K :=
  Vec2.mk' (v.x*T.a + v.y*T.d + T.c) (v.x*T.b + v.y*T.e + T.f)

/-- transform.py:260-267: the points handed to `other.from_points` when a transform multiplies a
sequence or shape. -/
def applyPts [Add K] [Mul K] [One K] (T : Affine K) (ps : List (Vec2 K)) : List (Vec2 K) :=
  ps.map fun p => Vec2.mk' (p.x*T.a + p.y*T.d + T.c) (p.x*T.b + p.y*T.e + T.f)

/-- Tuple equality of two transforms (inherited from `tuple`; the constant third row is equal). -/
instance [BEq K] : BEq (Affine K) :=
  ⟨fun s o => s.a == o.a && s.b == o.b && s.c == o.c && s.d == o.d && s.e == o.e && s.f == o.f⟩

/-- transform.py:303-321 `__invert__`. -/
def invert [Sub K] [Mul K] [Div K] [Neg K] [Zero K] [One K] [BEq K] [LT K] [DecidableLT K]
    (eps : K) (T : Affine K) : Py (Affine K) :=
  if T.isDegenerate eps then .error .notInvertible
  else do
    let idet ← pydiv 1 T.determinant
    let ra := T.e * idet
    let rb := -T.b * idet
    let rd := -T.d * idet
    let re := T.a * idet
    return ⟨ra, rb, -T.c*ra - T.f*rb, rd, re, -T.c*rd - T.f*re⟩

/-- transform.py:300-301, the loop of `itransform` from index `i` on: each element is read from and
written back to the live sequence. -/
def itransformFrom [Add K] [Mul K] [One K] (T : Affine K) (seq : List (Vec2 K)) (i : Nat) :
    List (Vec2 K) :=
  if h : i < seq.length then
    itransformFrom T (seq.set i
      (Vec2.mk' (seq[i].x*T.a + seq[i].y*T.d + T.c) (seq[i].x*T.b + seq[i].y*T.e + T.f))) (i + 1)
  else seq
termination_by seq.length - i
decreasing_by simp; omega

/-- transform.py:290-301 `itransform` on a plain sequence (Seq2 or Vec2Array). The test
`self is not identity` is subsumed by `self != identity` (an object equals itself). -/
def itransform [Add K] [Mul K] [Zero K] [One K] [BEq K] (T : Affine K) (seq : List (Vec2 K)) :
    List (Vec2 K) :=
  if T != identity then itransformFrom T seq 0 else seq

end Affine
end Planar
