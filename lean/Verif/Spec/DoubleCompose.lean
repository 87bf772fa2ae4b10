import Verif.Spec.DoubleAffine
/- Products of transforms of doubles, and two transforms one after the other, without rounding. -/
namespace Planar.Spec

/-- Where the matrix product of the two transforms moves the point (transform.py:243-262 and 272-275), without rounding. -/
noncomputable def productImage (A B : Affine Double) (p : Vec2 Double) : Vec2 ℝ :=
  ⟨p.x.real * (A.a.real * B.a.real + A.b.real * B.d.real) + p.y.real * (A.d.real * B.a.real + A.e.real * B.d.real) +
    (A.a.real * B.c.real + A.b.real * B.f.real + A.c.real),
   p.x.real * (A.a.real * B.b.real + A.b.real * B.e.real) + p.y.real * (A.d.real * B.b.real + A.e.real * B.e.real) +
    (A.d.real * B.c.real + A.e.real * B.f.real + A.f.real)⟩

/-- The sums of the absolute values of its terms. -/
noncomputable def productSize (A B : Affine Double) (p : Vec2 Double) : Vec2 ℝ :=
  ⟨|p.x.real| * (|A.a.real * B.a.real| + |A.b.real * B.d.real|) + |p.y.real| * (|A.d.real * B.a.real| + |A.e.real * B.d.real|) +
    (|A.a.real * B.c.real| + |A.b.real * B.f.real| + |A.c.real|),
   |p.x.real| * (|A.a.real * B.b.real| + |A.b.real * B.e.real|) + |p.y.real| * (|A.d.real * B.b.real| + |A.e.real * B.e.real|) +
    (|A.d.real * B.c.real| + |A.e.real * B.f.real| + |A.f.real|)⟩

/-- Where the point goes when `S` moves it and then `T`, without rounding. -/
noncomputable def twiceImage (S T : Affine Double) (p : Vec2 Double) : Vec2 ℝ :=
  ⟨(image S p).x * T.a.real + (image S p).y * T.d.real + T.c.real, (image S p).x * T.b.real + (image S p).y * T.e.real + T.f.real⟩

/-- The sums of the absolute values of its terms. -/
noncomputable def twiceSize (S T : Affine Double) (p : Vec2 Double) : Vec2 ℝ :=
  ⟨(imageSize S p).x * |T.a.real| + (imageSize S p).y * |T.d.real| + |T.c.real|,
   (imageSize S p).x * |T.b.real| + (imageSize S p).y * |T.e.real| + |T.f.real|⟩

end Planar.Spec
