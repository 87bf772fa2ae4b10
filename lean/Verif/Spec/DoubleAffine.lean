import Verif.Spec.DoubleSqrt
import Verif.Model.Affine
/- Transforms of doubles as transforms of real numbers, without rounding. The transform with entries `a b c / d e f` moves
`(x, y)` to `(x a + y d + c, x b + y e + f)`, transform.py:272-275. -/
namespace Planar.Spec

/-- Where the transform moves the point, without rounding. -/
noncomputable def image (T : Affine Double) (p : Vec2 Double) : Vec2 ℝ :=
  ⟨p.x.real * T.a.real + p.y.real * T.d.real + T.c.real, p.x.real * T.b.real + p.y.real * T.e.real + T.f.real⟩

/-- The sums of the absolute values of the terms of `image`. -/
noncomputable def imageSize (T : Affine Double) (p : Vec2 Double) : Vec2 ℝ :=
  ⟨|p.x.real * T.a.real| + |p.y.real * T.d.real| + |T.c.real|, |p.x.real * T.b.real| + |p.y.real * T.e.real| + |T.f.real|⟩

/-- All entries are at most `M` in absolute value. -/
def WithinT (M : ℝ) (T : Affine Double) : Prop :=
  |T.a.real| ≤ M ∧ |T.b.real| ≤ M ∧ |T.c.real| ≤ M ∧ |T.d.real| ≤ M ∧ |T.e.real| ≤ M ∧ |T.f.real| ≤ M

/-- The determinant, without rounding. -/
noncomputable def exactDet (T : Affine Double) : ℝ := T.a.real * T.e.real - T.b.real * T.d.real

/-- The sum of the absolute values of its two terms. -/
noncomputable def detSize (T : Affine Double) : ℝ := |T.a.real * T.e.real| + |T.b.real * T.d.real|

/-- How much cancellation there is in the determinant: at least 1, and exactly 1 for scalings and translations. -/
noncomputable def spread (T : Affine Double) : ℝ := detSize T / |exactDet T|

/-- `computed` is `exact` up to a relative error `r` of `size` and an absolute error `r'`. -/
def Near (r size r' : ℝ) (computed : Double) (exact : ℝ) : Prop := |computed.real - exact| ≤ r * size + r'

end Planar.Spec
