import Verif.Model.Affine
/- `cached_property` (/repo/planar/util.py:23-37) on an Affine object, and the global EPSILON
(/repo/planar/__init__.py:58-76). -/
namespace Planar

variable {K : Type}

/-- An Affine object: its tuple, whether it is the module-level `identity`, and the entries of its
`__dict__` (`none`: no entry yet). -/
structure AffObj (K : Type) where
  T : Affine K
  isIdObj : Bool
  cDet : Option K
  cIdentity : Option Bool
  cRectilinear : Option Bool
  cConformal : Option Bool
  cOrthonormal : Option Bool
  cDegenerate : Option Bool

/-- The cached properties of Affine. -/
inductive AffProp where
  | determinant | isIdentity | isRectilinear | isConformal | isOrthonormal | isDegenerate
  deriving DecidableEq, Repr

/-- A property value. -/
inductive AffVal (K : Type) where
  | num (k : K)
  | flag (b : Bool)

namespace AffObj

/-- A new object has an empty `__dict__`. -/
def fresh (T : Affine K) (isIdObj : Bool := false) : AffObj K :=
  ⟨T, isIdObj, none, none, none, none, none, none⟩

variable [Add K] [Sub K] [Mul K] [Neg K] [Zero K] [One K] [LT K] [LE K] [DecidableLT K]
  [DecidableLE K]

/-- transform.py:154-161 through util.py:29-34. -/
def readDet (o : AffObj K) : K × AffObj K :=
  match o.cDet with
  | some v => (v, o)
  | none => (o.T.determinant, { o with cDet := some o.T.determinant })

/-- transform.py:163-168 through util.py:29-34. -/
def readIdentity (eps : K) (o : AffObj K) : Bool × AffObj K :=
  match o.cIdentity with
  | some v => (v, o)
  | none =>
    let v := o.T.isIdentity eps o.isIdObj
    (v, { o with cIdentity := some v })

/-- transform.py:170-178 through util.py:29-34. -/
def readRectilinear (eps : K) (o : AffObj K) : Bool × AffObj K :=
  match o.cRectilinear with
  | some v => (v, o)
  | none =>
    let v := o.T.isRectilinear eps
    (v, { o with cRectilinear := some v })

/-- transform.py:180-187 through util.py:29-34. -/
def readConformal (eps : K) (o : AffObj K) : Bool × AffObj K :=
  match o.cConformal with
  | some v => (v, o)
  | none =>
    let v := o.T.isConformal eps
    (v, { o with cConformal := some v })

/-- transform.py:189-200 through util.py:29-34: reads the (cached) property `is_conformal`. -/
def readOrthonormal (eps : K) (o : AffObj K) : Bool × AffObj K :=
  match o.cOrthonormal with
  | some v => (v, o)
  | none =>
    let r := o.readConformal eps
    let o := r.2
    let v := r.1 && pyabs (1 - (o.T.a*o.T.a + o.T.d*o.T.d)) < eps
      && pyabs (1 - (o.T.b*o.T.b + o.T.e*o.T.e)) < eps
    (v, { o with cOrthonormal := some v })

/-- transform.py:202-208 through util.py:29-34: reads the (cached) property `determinant`. -/
def readDegenerate (eps : K) (o : AffObj K) : Bool × AffObj K :=
  match o.cDegenerate with
  | some v => (v, o)
  | none =>
    let r := o.readDet
    let o := r.2
    let v : Bool := pyabs r.1 < eps
    (v, { o with cDegenerate := some v })

/-- Reading any cached property. -/
def read (eps : K) (o : AffObj K) : AffProp → AffVal K × AffObj K
  | .determinant => let r := o.readDet; (.num r.1, r.2)
  | .isIdentity => let r := o.readIdentity eps; (.flag r.1, r.2)
  | .isRectilinear => let r := o.readRectilinear eps; (.flag r.1, r.2)
  | .isConformal => let r := o.readConformal eps; (.flag r.1, r.2)
  | .isOrthonormal => let r := o.readOrthonormal eps; (.flag r.1, r.2)
  | .isDegenerate => let r := o.readDegenerate eps; (.flag r.1, r.2)

/-- transform.py:303-321 `~T`, which reads the cached `is_degenerate` and `determinant`. -/
def invert [Div K] [BEq K] (eps : K) (o : AffObj K) : Py (Affine K) × AffObj K :=
  let r := o.readDegenerate eps
  let o := r.2
  if r.1 then (.error .notInvertible, o)
  else
    let r := o.readDet
    let o := r.2
    (do
      let idet ← pydiv 1 r.1
      let ra := o.T.e * idet
      let rb := -o.T.b * idet
      let rd := -o.T.d * idet
      let re := o.T.a * idet
      return ⟨ra, rb, -o.T.c*ra - o.T.f*rb, rd, re, -o.T.c*rd - o.T.f*re⟩, o)

/-- Something a program does: read a property, invert the transform, or call
`planar.set_epsilon`. -/
inductive Event (K : Type) where
  | read (p : AffProp)
  | invert
  | setEpsilon (e : K)

/-- One event on the global EPSILON and the object. -/
def step [Div K] [BEq K] (w : K × AffObj K) : Event K → K × AffObj K
  | .read p => (w.1, (w.2.read w.1 p).2)
  | .invert => (w.1, (w.2.invert w.1).2)
  | .setEpsilon e => (e, w.2)

/-- A whole history. -/
def run [Div K] [BEq K] (w : K × AffObj K) (es : List (Event K)) : K × AffObj K := es.foldl step w

end AffObj
end Planar
