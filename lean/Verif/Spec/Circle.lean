import Verif.Model.Vec2
import Mathlib.Analysis.SpecialFunctions.Trigonometric.Basic
/- Angles in degrees and points on circles (specification, independent of the model). -/
namespace Planar
open Real

/-- The cosine of an angle given in degrees. -/
noncomputable def cosDeg (d : ℝ) : ℝ := Real.cos (d * (π / 180))
/-- The sine of an angle given in degrees. -/
noncomputable def sinDeg (d : ℝ) : ℝ := Real.sin (d * (π / 180))

/-- The point at distance `r` from `c` in the direction of the angle `θ` (degrees). -/
noncomputable def Spec.circ (c : Vec2 ℝ) (r θ : ℝ) : Vec2 ℝ := ⟨c.x + r * cosDeg θ, c.y + r * sinDeg θ⟩

end Planar
