import Verif.Spec.DoubleAffine
/- What a point goes through when a transform and its inverse are applied to it. -/
namespace Planar.Spec

/-- The sums of the absolute values of all terms in the coordinates of `T⁻¹ (T p)`, written out with the entries of the exact
inverse matrix. For the identity it is `(|x|, |y|)`, for a scaling by `a` with the translation `c` it is `|x| + 2 |c / a|`. -/
noncomputable def backSize (T : Affine Double) (p : Vec2 Double) : Vec2 ℝ :=
  ⟨(|T.e.real| * (imageSize T p).x + |T.d.real| * (imageSize T p).y + (|T.c.real * T.e.real| + |T.f.real * T.b.real|)) / |exactDet T|,
   (|T.b.real| * (imageSize T p).x + |T.a.real| * (imageSize T p).y + (|T.c.real * T.d.real| + |T.f.real * T.a.real|)) / |exactDet T|⟩

end Planar.Spec
