import Verif.Model.Hull
import Verif.Model.BoxPoly
import Verif.Model.History
/- The polygon objects a program can hold. Nothing is assumed of the arithmetic or of the comparisons. -/
namespace Planar
variable {K : Type} [Add K] [Sub K] [Mul K] [Div K] [Neg K] [Zero K] [One K] [BEq K] [LT K] [LE K]
  [DecidableLT K] [DecidableLE K]

/-- Polygon objects that the API can build and then work on, without slice assignment and `from_points` with fewer than
three points (specification): from the constructors, as the hull of points or of a polygon, from a box, as the transform
or copy of another, and through any operation. -/
inductive Reachable [PyMath K] (eps : K) (order : List (Vec2 K) → List (Vec2 K)) : Polygon K → Prop
  | new (vs : List (Vec2 K)) (c m : Option Bool) (s) (h : Polygon.new vs c m = .ok s) : Reachable eps order s
  | points (vs : List (Vec2 K)) (h : 3 ≤ vs.length) : Reachable eps order (Polygon.fromPoints vs)
  | regular (n : Int) (r : K) (c : Vec2 K) (a : K) (s) (h : Polygon.regular n r c a = .ok s) : Reachable eps order s
  | star (n : Int) (r1 r2 : K) (c : Vec2 K) (a : K) (s) (h : Polygon.star n r1 r2 c a = .ok s) : Reachable eps order s
  | hull (ps : List (Vec2 K)) (s) (h : Hull.convexHull order ps = .ok s) : Reachable eps order s
  | hullPoly (t s : Polygon K) (ht : Reachable eps order t) (h : Hull.convexHullPoly order t = .ok s) :
      Reachable eps order s
  | box (b : Box K) (s) (h : b.toPolygon = .ok s) : Reachable eps order s
  | boxMul (b : Box K) (T : Affine K) (s) (h : b.mulT eps T = .ok (.poly s)) : Reachable eps order s
  | fit (b : Box K) (t s : Polygon K) (ht : Reachable eps order t) (h : (b.fitPolygon t).1 = .ok s) :
      Reachable eps order s
  | transformed (s : Polygon K) (hs : Reachable eps order s) (T : Affine K) : Reachable eps order (s.transformed T)
  | copy (s : Polygon K) (hs : Reachable eps order s) : Reachable eps order s.copy
  | deepcopy (s : Polygon K) (hs : Reachable eps order s) : Reachable eps order s.deepcopy
  | op (s : Polygon K) (hs : Reachable eps order s) (o : PolyOp K) : Reachable eps order (o.run eps s)

end Planar
