import Verif.Model.Num
import Mathlib.Analysis.SpecialFunctions.Trigonometric.Basic
import Mathlib.Analysis.SpecialFunctions.Complex.Arg
import Mathlib.Analysis.SpecialFunctions.Sqrt
/- The exact (real-number) meaning of the `math` functions planar uses. -/
namespace Planar

/-- `x ** 0.5`, `math.hypot`, `math.cos`, ... on real numbers. `atan2 y x` is the principal argument of
`x + i y` (in `(-π, π]`, and 0 for the origin, as in C); `%` and `//` round towards minus
infinity. -/
noncomputable instance : PyMath ℝ where
  sqrt := Real.sqrt
  sq x := some (x * x)
  hypot x y := Real.sqrt (x * x + y * y)
  cos := Real.cos
  sin := Real.sin
  tan := Real.tan
  atan2 y x := Complex.arg ⟨x, y⟩
  radians d := d * (Real.pi / 180)
  degrees r := r * (180 / Real.pi)
  fmod a b := a - b * (⌊a / b⌋ : ℝ)
  fdiv a b := (⌊a / b⌋ : ℝ)
  ofInt n := (n : ℝ)

end Planar
