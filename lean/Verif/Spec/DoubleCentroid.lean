import Verif.Spec.Convex
import Verif.Spec.Area
import Mathlib.Analysis.Real.Sqrt
/- How much the triangles from the first vertex of a closed path cover, for the error of the centroid. -/
namespace Planar.Spec

/-- Twice the sum of the areas of the triangles from the first vertex over the edges that do not touch it, each counted as
positive: twice the area of a polygon that is convex or that can be seen whole from its first vertex, more for others. -/
noncomputable def fanArea : List (Vec2 ℝ) → ℝ
  | a :: b :: l => ((edgesFrom b l).map fun e => |side a e.1 e.2|).sum
  | _ => 0

end Planar.Spec
