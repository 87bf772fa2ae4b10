import Verif.Spec.DoubleSqrt
import Verif.Spec.Shapes
/- The nearest point of a set, and where along a direction a point is. -/
namespace Planar.Spec

/-- `F` is a point of `S`, and no point of `S` is nearer to `p`. -/
def Nearest (S : Vec2 ℝ → Prop) (p F : Vec2 ℝ) : Prop := S F ∧ ∀ G, S G → gap p F ≤ gap p G

/-- How far `p` is ahead of `a` in the direction of `v` (negative: behind). -/
noncomputable def ahead (a v p : Vec2 ℝ) : ℝ := ((p.x - a.x) * v.x + (p.y - a.y) * v.y) / vlen v

/-- Both coordinates of the computed point `q` are those of `F` up to `e`. -/
def CloseTo (e : ℝ) (q : Vec2 Double) (F : Vec2 ℝ) : Prop := |q.x.real - F.x| ≤ e ∧ |q.y.real - F.y| ≤ e

end Planar.Spec
