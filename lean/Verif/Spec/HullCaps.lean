import Verif.Spec.Convex
/- A condition on a set of points, in terms of its leftmost and rightmost points and those farthest from the line through
them. Independent of the model of polygon.py. -/
namespace Planar.Spec
variable {K : Type} [Field K] [LinearOrder K]

/-- The scalar product of the vectors from `a` to `b` and from `a` to `p`. -/
def dotAt (a b p : Vec2 K) : K := (b.x - a.x) * (p.x - a.x) + (b.y - a.y) * (p.y - a.y)

/-- `p` is between the perpendiculars of the segment from `a` to `b` at its ends, and not on the one at `a`. -/
def Facing (a b p : Vec2 K) : Prop := 0 < dotAt a b p ∧ dotAt a b p ≤ dotAt a b b

/-- No point is farther to the left and none farther to the right. -/
def Extremes (points : List (Vec2 K)) (a b : Vec2 K) : Prop := a ∈ points ∧ b ∈ points ∧ ∀ p ∈ points, a.x ≤ p.x ∧ p.x ≤ b.x

/-- `c` is one of the points on the left of the line from `a` to `b` that are farthest from it. -/
def Summit (points : List (Vec2 K)) (a b c : Vec2 K) : Prop := c ∈ points ∧ 0 < side a b c ∧ ∀ p ∈ points, side a b p ≤ side a b c

/-- The points beyond each of the two segments that join a summit to the ends face that segment. -/
def CapFaces (points : List (Vec2 K)) (a b : Vec2 K) : Prop := ∀ c, Summit points a b c → ∀ p ∈ points,
  (0 < side a c p → Facing a c p) ∧ (0 < side c b p → Facing c b p)

/-- On both sides of the line through a leftmost and a rightmost point. -/
def CapsFace (points : List (Vec2 K)) : Prop := ∀ a b, Extremes points a b → CapFaces points a b ∧ CapFaces points b a

end Planar.Spec
