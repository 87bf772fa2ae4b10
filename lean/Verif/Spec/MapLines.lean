import Verif.Spec.DoubleAffine
import Verif.Spec.Nearest
/- What a transform does to points and to vectors, without rounding. -/
namespace Planar.Spec

/-- Where a transform moves a point of the plane. -/
noncomputable def mapPt (T : Affine Double) (p : Vec2 ℝ) : Vec2 ℝ :=
  ⟨p.x * T.a.real + p.y * T.d.real + T.c.real, p.x * T.b.real + p.y * T.e.real + T.f.real⟩

/-- What a transform makes of the vector from one point to another. -/
noncomputable def mapVec (T : Affine Double) (v : Vec2 ℝ) : Vec2 ℝ :=
  ⟨v.x * T.a.real + v.y * T.d.real, v.x * T.b.real + v.y * T.e.real⟩

/-- The vector of length one in the direction of `v`. -/
noncomputable def dirOf (v : Vec2 ℝ) : Vec2 ℝ := ⟨v.x / vlen v, v.y / vlen v⟩

end Planar.Spec
