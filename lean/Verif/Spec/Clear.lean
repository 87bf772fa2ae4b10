import Mathlib.Algebra.Order.Ring.Unbundled.Rat
import Mathlib.Algebra.Field.Rat
import Mathlib.Algebra.Order.Group.Abs
import Verif.Spec.Polygon
import Verif.Spec.Corners
/- Points that are far enough from edges, and corners that are bent enough, for double precision arithmetic to decide
them. All numbers here are exact. -/
namespace Planar.Spec

/-- The height of `p` is between those of the ends of the edge (the upper end included, the lower one not). -/
def Spans (e : Vec2 ℚ × Vec2 ℚ) (p : Vec2 ℚ) : Prop :=
  (e.1.y < p.y ∧ p.y ≤ e.2.y) ∨ (e.2.y < p.y ∧ p.y ≤ e.1.y)

/-- The horizontal distance of `p` from the edge is more than `2 ^ -51` times the extent of the edge and the point (the
width of the edge plus the larger horizontal distance of `p` from its ends); the last term is for tiny edges. -/
def FarFrom (e : Vec2 ℚ × Vec2 ℚ) (p : Vec2 ℚ) : Prop :=
  1 / 2 ^ 51 * (|e.2.x - e.1.x| + max |p.x - e.1.x| |p.x - e.2.x|) + 1 / 2 ^ 1074 / |e.2.y - e.1.y|
    < |p.x - crossX e.1 e.2 p.y|

/-- `p` is far from every edge at its height. -/
def ClearPoint (vs : List (Vec2 ℚ)) (p : Vec2 ℚ) : Prop := ∀ e ∈ edges vs, Spans e p → FarFrom e p

/-- Vectors that are clearly not parallel: their cross product is more than `2 ^ -51` times the sum of the absolute values
of its two products; or parallel to the same axis (or null). -/
def ClearCross (d e : Vec2 ℚ) : Prop :=
  1 / 2 ^ 51 * (|d.x * e.y| + |d.y * e.x|) + 1 / 2 ^ 1074 < |d.x * e.y - d.y * e.x| ∨ (d.x * e.y = 0 ∧ d.y * e.x = 0)

/-- At every corner the path turns clearly to the left or to the right (or goes straight on or back along an axis). -/
def ClearCorners (vs : List (Vec2 ℚ)) : Prop := ∀ c ∈ corners vs,
  ClearCross ⟨c.2.1.x - c.1.x, c.2.1.y - c.1.y⟩ ⟨c.2.2.x - c.2.1.x, c.2.2.y - c.2.1.y⟩

/-- Every vertex is clearly to one side of the line through every edge (seen from either end), or an end of it. -/
def ClearSides (vs : List (Vec2 ℚ)) : Prop := ∀ e ∈ edges vs, ∀ v ∈ vs, v ≠ e.1 → v ≠ e.2 →
  ClearCross ⟨e.2.x - e.1.x, e.2.y - e.1.y⟩ ⟨v.x - e.1.x, v.y - e.1.y⟩ ∧
  ClearCross ⟨e.1.x - e.2.x, e.1.y - e.2.y⟩ ⟨v.x - e.2.x, v.y - e.2.y⟩

/-- `p` is clearly to one side of the line through every edge (seen from its start), and no two vertices are in nearly the
same or nearly opposite directions from `p` (or, in both cases, the two vectors are parallel to the same axis). -/
def ClearSight (vs : List (Vec2 ℚ)) (p : Vec2 ℚ) : Prop :=
  (∀ e ∈ edges vs, ClearCross ⟨e.2.x - e.1.x, e.2.y - e.1.y⟩ ⟨p.x - e.1.x, p.y - e.1.y⟩) ∧
  ∀ a ∈ vs, ∀ b ∈ vs, a ≠ b → ClearCross ⟨a.x - p.x, a.y - p.y⟩ ⟨b.x - p.x, b.y - p.y⟩

/-- All coordinates are at most `2 ^ 510` in absolute value, so that no product of differences overflows. -/
def Moderate (v : Vec2 ℚ) : Prop := |v.x| ≤ 2 ^ 510 ∧ |v.y| ≤ 2 ^ 510

end Planar.Spec
