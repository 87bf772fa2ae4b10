import Mathlib.Analysis.Real.Sqrt
import Verif.Spec.Double
import Verif.Model.Vec2
/- What `x ** 0.5` returns for doubles, and vectors of doubles as vectors of real numbers. -/
namespace Planar.Spec

/-- The real number that a double is. -/
noncomputable def Fl.real (a : Double) : ℝ := (a.val : ℝ)

/-- Not infinite. -/
def Fl.Finite (a : Double) : Prop := |a.val| < 2 ^ 1024

/-- The square root is within one unit in the last place (a relative error of `2 ^ -52`), and infinite for infinity. -/
class SqrtOk [PyMath Double] : Prop where
  finite : ∀ a : Double, 0 ≤ a → a.Finite → |(PyMath.sqrt a).real - √a.real| ≤ 1 / 2 ^ 52 * √a.real
  infinite : PyMath.sqrt dinf = dinf

/-- A vector of doubles as a vector of real numbers. -/
noncomputable def toReal (v : Vec2 Double) : Vec2 ℝ := ⟨v.x.real, v.y.real⟩

/-- The length of a vector. -/
noncomputable def vlen (v : Vec2 ℝ) : ℝ := √(v.x * v.x + v.y * v.y)

/-- Both coordinates are finite. -/
def FiniteVec (v : Vec2 Double) : Prop := v.x.Finite ∧ v.y.Finite

/-- Both coordinates are at most `M` in absolute value. -/
def Within (M : ℝ) (v : Vec2 Double) : Prop := |v.x.real| ≤ M ∧ |v.y.real| ≤ M

/-- The signed distance of `p` from the line through `a` with direction `v`: positive to the right. -/
noncomputable def signedDist (a v p : Vec2 ℝ) : ℝ := ((p.x - a.x) * v.y - (p.y - a.y) * v.x) / vlen v

/-- The distance of two points. -/
noncomputable def gap (p q : Vec2 ℝ) : ℝ := vlen ⟨p.x - q.x, p.y - q.y⟩

/-- `n` is the unit vector along `v` up to relative errors of `2 ^ -50` in each component (and `2 ^ -1075` for components
that are almost zero), and its length is one up to `2 ^ -49`. -/
def CloseDir (v n : Vec2 ℝ) : Prop :=
  |n.x - v.x / vlen v| ≤ 1 / 2 ^ 50 * |v.x / vlen v| + 1 / 2 ^ 1075 ∧
  |n.y - v.y / vlen v| ≤ 1 / 2 ^ 50 * |v.y / vlen v| + 1 / 2 ^ 1075 ∧ |vlen n - 1| ≤ 1 / 2 ^ 49

end Planar.Spec
