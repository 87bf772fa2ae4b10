import Mathlib.Analysis.SpecialFunctions.Trigonometric.Basic
import Mathlib.Analysis.SpecialFunctions.Complex.Arg
import Verif.Spec.DoubleSqrt
import Verif.Spec.Circle
/- What `%`, `math.radians`, `math.degrees`, `math.cos`, `math.sin`, `math.tan` and `math.atan2` return for doubles. -/
namespace Planar.Spec
open Real

/-- Integers that are doubles are converted exactly; `a % b` is the exact remainder, rounded; `radians` and `degrees` have a
relative error of at most `2 ^ -51` (a rounded constant and a rounded product), `cos`, `sin`, `tan` and `atan2` one of at most
one unit in the last place (of numbers up to one, for cosines and sines); zero is mapped to zero, and to one by the cosine. -/
class TrigOk [PyMath Double] : Prop where
  ofInt : ∀ n : ℤ, |n| ≤ 2 ^ 53 → (PyMath.ofInt n : Double).val = n
  fmod : ∀ a b : Double, a.Finite → b.Finite → 0 < b →
    PyMath.fmod a b = Fl.round double (a.val - b.val * (⌊a.val / b.val⌋ : ℤ))
  radians : ∀ a : Double, a.Finite →
    |(PyMath.radians a).real - a.real * (π / 180)| ≤ 1 / 2 ^ 51 * |a.real * (π / 180)| + 1 / 2 ^ 1074
  degrees : ∀ a : Double, |a.real| ≤ 2 ^ 1000 →
    |(PyMath.degrees a).real - a.real * (180 / π)| ≤ 1 / 2 ^ 51 * |a.real * (180 / π)| + 1 / 2 ^ 1074
  cos : ∀ a : Double, |a.real| ≤ 2 ^ 10 → |(PyMath.cos a).real - Real.cos a.real| ≤ 1 / 2 ^ 52
  sin : ∀ a : Double, |a.real| ≤ 2 ^ 10 → |(PyMath.sin a).real - Real.sin a.real| ≤ 1 / 2 ^ 52
  tan : ∀ a : Double, |a.real| ≤ 3 / 2 →
    |(PyMath.tan a).real - Real.tan a.real| ≤ 1 / 2 ^ 52 * |Real.tan a.real| + 1 / 2 ^ 1074
  /-- Without signed zeros `atan2` has no definite value on the negative x-axis (and at the origin): nothing is assumed there. -/
  atan2 : ∀ y x : Double, y.Finite → x.Finite → y ≠ 0 ∨ 0 < x →
    |(PyMath.atan2 y x).real - Complex.arg ⟨x.real, y.real⟩| ≤ 1 / 2 ^ 52 * |Complex.arg ⟨x.real, y.real⟩| + 1 / 2 ^ 1074
  radians_zero : PyMath.radians (0 : Double) = 0
  cos_zero : PyMath.cos (0 : Double) = 1
  sin_zero : PyMath.sin (0 : Double) = 0
  tan_zero : PyMath.tan (0 : Double) = 0

/-- The exact angle of a vector in degrees, in `(-180, 180]`. -/
noncomputable def angleOf (v : Vec2 ℝ) : ℝ := Complex.arg ⟨v.x, v.y⟩ * (180 / π)

/-- A point turned about a pivot by `d` degrees. -/
noncomputable def turned (p q : Vec2 ℝ) (d : ℝ) : Vec2 ℝ :=
  ⟨p.x + ((q.x - p.x) * cosDeg d - (q.y - p.y) * sinDeg d), p.y + ((q.x - p.x) * sinDeg d + (q.y - p.y) * cosDeg d)⟩

/-- What is known about vertex number `i` of a polygon around `c`: its place (the radius `r` and the angle `d`), and its distance
from `c`. -/
def NearCircle (c : Vec2 Double) (r : Double) (d : ℝ) (i : ℕ) (v : Vec2 Double) : Prop :=
  |v.x.real - (circ (toReal c) r.real d).x| ≤ (i / 2 ^ 48 + 1 / 2 ^ 47) * |r.real| + 1 / 2 ^ 52 * |c.x.real| + 1 / 2 ^ 1073 ∧
  |v.y.real - (circ (toReal c) r.real d).y| ≤ (i / 2 ^ 48 + 1 / 2 ^ 47) * |r.real| + 1 / 2 ^ 52 * |c.y.real| + 1 / 2 ^ 1073 ∧
  |gap (toReal v) (toReal c) - abs r.real| ≤
    1 / 2 ^ 46 * |r.real| + 1 / 2 ^ 52 * (|c.x.real| + |c.y.real|) + 1 / 2 ^ 1072

end Planar.Spec
