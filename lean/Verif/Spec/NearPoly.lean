import Verif.Spec.DoubleAffine
import Verif.Spec.Polygon
import Verif.Spec.Shapes
import Verif.Spec.Circle
/- Polygons whose vertices are rounded. -/
namespace Planar.Spec

/-- The vertices of the second list are those of the first moved by at most `d`. -/
def MovedBy (d : ℝ) (vs : List (Vec2 Double)) (V : List (Vec2 ℝ)) : Prop :=
  List.Forall₂ (fun v W => gap (toReal v) W ≤ d) vs V

/-- Farther than `d` from every point of every edge of the polygon. -/
def FarFromEdges (d : ℝ) (V : List (Vec2 ℝ)) (p : Vec2 ℝ) : Prop :=
  ∀ E ∈ edges V, ∀ q, OnSeg E.1 E.2 q → d < gap p q

/-- Heights of neighbouring vertices are equal or at least `2 ^ -500` apart. -/
def ClearHeights (vs : List (Vec2 Double)) : Prop :=
  ∀ e ∈ edges vs, e.1.y ≠ e.2.y → 1 / 2 ^ 500 ≤ |e.2.y.val - e.1.y.val|

/-- Where a transform of doubles moves a real point, without rounding. -/
noncomputable def imageAt (T : Affine Double) (q : Vec2 ℝ) : Vec2 ℝ :=
  ⟨q.x * T.a.real + q.y * T.d.real + T.c.real, q.x * T.b.real + q.y * T.e.real + T.f.real⟩

/-- Neither one of the lowest vertices nor one of the highest, even if all are moved by `d`. -/
def NotExtreme (d : ℝ) (V : List (Vec2 ℝ)) (u : Vec2 ℝ) : Prop := (∃ v ∈ V, v.y + 2 * d < u.y) ∧ ∃ v ∈ V, u.y + 2 * d < v.y

/-- A vertex that may become the leftmost one when all are moved by `d` is not the lowest or the highest, and has a part of the
polygon on its right; one that may become the rightmost has a part of the polygon on its left. -/
def Broad (d : ℝ) (V : List (Vec2 ℝ)) : Prop := ∀ u ∈ V,
  ((∀ v ∈ V, u.x ≤ v.x + 2 * d) → NotExtreme d V u ∧ ∃ w, InHull V w ∧ w.y = u.y ∧ u.x < w.x) ∧
  ((∀ v ∈ V, v.x ≤ u.x + 2 * d) → NotExtreme d V u ∧ ∃ w, InHull V w ∧ w.y = u.y ∧ w.x < u.x)

/-- The vertices of a regular polygon without rounding: `n` points around `c` at the distance `|r|`, the first one in the
direction of the angle `a` (degrees). -/
noncomputable def regularPoints (n : ℕ) (c : Vec2 ℝ) (r a : ℝ) : List (Vec2 ℝ) := (List.range n).map fun i : ℕ =>
  circ c r (a + 360 * i / n)

/-- The vertices of a star without rounding: `2 * n` points around `c`, alternately at the distances `|r1|` and `|r2|`. -/
noncomputable def starPoints (n : ℕ) (c : Vec2 ℝ) (r1 r2 a : ℝ) : List (Vec2 ℝ) := (List.range (2 * n)).map fun i : ℕ =>
  circ c (if i % 2 = 0 then r1 else r2) (a + 180 * i / n)

end Planar.Spec
