import Verif.Model.Polygon
/- The methods of BoundingBox (/repo/planar/box.py) that involve polygons. -/
namespace Planar
variable {K : Type}

/-- The result of multiplying a box: another box or a polygon. -/
inductive Shape (K : Type) where
  | box (b : Box K)
  | poly (p : Polygon K)
  deriving Repr

namespace Box
variable [Add K] [Sub K] [Mul K] [Div K] [Neg K] [Zero K] [One K] [BEq K] [LT K] [LE K]
  [DecidableLT K] [DecidableLE K]

/-- box.py:213-222 `to_polygon`. -/
def toPolygon (b : Box K) : Py (Polygon K) :=
  Polygon.new [b.min, ⟨b.min.x, b.max.y⟩, b.max, ⟨b.max.x, b.min.y⟩] (some true) none

/-- box.py:248-261 `__mul__`/`__rmul__` with a transform. (`T * box` ends up in `__rmul__`:
iterating a box is a TypeError, which transform.py:268-269 turns into NotImplemented.) -/
def mulT (eps : K) (b : Box K) (T : Affine K) : Py (Shape K) :=
  if T.isRectilinear eps then do
    let r ← fromPoints [T.apply b.min, T.apply b.max]
    return .box r
  else do
    let p ← b.toPolygon
    return .poly (p.imul T)

/-- box.py:206-211 `fit` of a polygon; also the polygon afterwards (its box is cached). -/
def fitPolygon (b : Box K) (s : Polygon K) : Py (Polygon K) × Polygon K :=
  match s.boundingBox with
  | (.error e, s) => (.error e, s)
  | (.ok sb, s) => match b.fitTransform sb with
    | .error e => (.error e, s)
    | .ok T => (.ok (s.transformed T), s)

end Box
end Planar
