import Verif.Spec.DoubleSqrt
/- How far along a direction a point is, for the sides of rays and segments (C78). -/
namespace Planar.Spec

/-- How far along the unit vector along `v` the point `p` is from `a`. -/
noncomputable def alongDist (a v p : Vec2 ℝ) : ℝ := ((p.x - a.x) * v.x + (p.y - a.y) * v.y) / vlen v

end Planar.Spec
