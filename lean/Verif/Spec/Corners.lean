import Verif.Model.Vec2
import Mathlib.Data.List.Rotate
/- The corners of a closed path. -/
namespace Planar.Spec

/-- The corners of the closed path through the vertices: each vertex with the two that follow it around the path. -/
def corners {K : Type} (vs : List (Vec2 K)) : List (Vec2 K × Vec2 K × Vec2 K) :=
  vs.zip ((vs.rotate 1).zip (vs.rotate 2))

end Planar.Spec
