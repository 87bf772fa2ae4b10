import Verif.Spec.DoubleSqrt
/- What the vector operations should return, on real numbers, and what `math.hypot` returns for doubles. -/
namespace Planar.Spec

/-- `n` is `w` up to a relative `r` and an absolute error `2 ^ -570` in each component. -/
def CloseVec (r : ℝ) (n : Vec2 Double) (w : Vec2 ℝ) : Prop :=
  |n.x.real - w.x| ≤ r * |w.x| + 1 / 2 ^ 570 ∧ |n.y.real - w.y| ≤ r * |w.y| + 1 / 2 ^ 570

/-- The vector along `v` of length `L`. -/
noncomputable def along (v : Vec2 ℝ) (L : ℝ) : Vec2 ℝ := ⟨v.x * (L / vlen v), v.y * (L / vlen v)⟩

/-- The projection of `o` on the line along `v`. -/
noncomputable def shadow (v o : Vec2 ℝ) : Vec2 ℝ :=
  ⟨v.x * ((v.x * o.x + v.y * o.y) / (v.x * v.x + v.y * v.y)), v.y * ((v.x * o.x + v.y * o.y) / (v.x * v.x + v.y * v.y))⟩

/-- `v` reflected in the line along `o`. -/
noncomputable def mirror (v o : Vec2 ℝ) : Vec2 ℝ := ⟨2 * (shadow o v).x - v.x, 2 * (shadow o v).y - v.y⟩

/-- `math.hypot` is within one unit in the last place (a relative error of `2 ^ -52`) where it is not almost infinite. -/
class HypotOk [PyMath Double] : Prop where
  near : ∀ a b : Double, |a.real| ≤ 2 ^ 1000 → |b.real| ≤ 2 ^ 1000 →
    |(PyMath.hypot a b).real - √(a.real * a.real + b.real * b.real)| ≤
      1 / 2 ^ 52 * √(a.real * a.real + b.real * b.real) + 1 / 2 ^ 1074

/-- `x ** 2` is within one unit in the last place of the square where that is at most `2 ^ 1022`, raises OverflowError for finite
numbers of `2 ^ 512` and more, and is infinite for infinity. -/
class SqOk [PyMath Double] : Prop where
  near : ∀ a : Double, |a.real| ≤ 2 ^ 511 → ∃ q, PyMath.sq a = some q ∧
    |q.real - a.real * a.real| ≤ 1 / 2 ^ 52 * (a.real * a.real) + 1 / 2 ^ 1074
  overflow : ∀ a : Double, a.Finite → 2 ^ 512 ≤ |a.real| → PyMath.sq a = none
  infinite : PyMath.sq dinf = some dinf

end Planar.Spec
