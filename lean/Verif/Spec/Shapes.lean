import Verif.Model.Vec2
import Mathlib.Data.Real.Basic
/- Lines, rays and segments as sets of points, independent of the model of line.py. -/
namespace Planar.Spec

/-- `p` is on the infinite line through `a` with direction `d`. -/
def OnLine (a d p : Vec2 ℝ) : Prop := ∃ t : ℝ, p.x = a.x + t * d.x ∧ p.y = a.y + t * d.y

/-- `p` is on the ray that starts at `a` and goes towards `d`. -/
def OnRay (a d p : Vec2 ℝ) : Prop := ∃ t : ℝ, 0 ≤ t ∧ p.x = a.x + t * d.x ∧ p.y = a.y + t * d.y

/-- `p` is between `a` and `b` (inclusive). -/
def OnSeg (a b p : Vec2 ℝ) : Prop :=
  ∃ t : ℝ, 0 ≤ t ∧ t ≤ 1 ∧ p.x = a.x + t * (b.x - a.x) ∧ p.y = a.y + t * (b.y - a.y)

/-- `d` is the distance from `p` to the set `S`: attained by a point of `S`, and no point of `S` is nearer. -/
def IsDist (S : Vec2 ℝ → Prop) (p : Vec2 ℝ) (d : ℝ) (dist : Vec2 ℝ → Vec2 ℝ → ℝ) : Prop :=
  (∃ q, S q ∧ dist p q = d) ∧ ∀ q, S q → d ≤ dist p q

end Planar.Spec
