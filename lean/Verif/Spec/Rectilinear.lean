import Mathlib.Algebra.Order.Group.Abs
import Verif.Spec.Polygon
import Verif.Spec.Rounded
/- Polygons with horizontal and vertical edges, and roundings without underflow. -/
namespace Planar.Spec

/-- The two points are on a vertical or on a horizontal line. -/
def Axis {K : Type} (a b : Vec2 K) : Prop := a.x = b.x ∨ a.y = b.y

/-- All edges of the closed path are horizontal or vertical. -/
def Rectilinear {K : Type} (vs : List (Vec2 K)) : Prop := ∀ e ∈ edges vs, Axis e.1 e.2

/-- Only zero is rounded to zero. -/
def NoUnderflow {F : Type} [Field F] [LinearOrder F] (R : Rounding F) : Prop := ∀ x, R.rnd x = 0 → x = 0

/-- The ends of every edge have equal or at least by one different x coordinates, and so for y. -/
def LongEdges {F : Type} [Field F] [LinearOrder F] {R : Rounding F} (vs : List (Vec2 (Fl R))) : Prop :=
  ∀ e ∈ edges vs, (e.1.x = e.2.x ∨ 1 ≤ |e.2.x.val - e.1.x.val|) ∧ (e.1.y = e.2.y ∨ 1 ≤ |e.2.y.val - e.1.y.val|)

end Planar.Spec
