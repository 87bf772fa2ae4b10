import Verif.Spec.Polygon
import Verif.Spec.Convex
/- Self-intersection of closed paths. Independent of the model of polygon.py. -/
namespace Planar.Spec
variable {K : Type} [Field K] [LinearOrder K]

/-- `e` and `f` are two edges of the closed path that do not follow one another. -/
def NotNeighbours (vs : List (Vec2 K)) (e f : Vec2 K × Vec2 K) : Prop :=
  ∃ i j : Nat, i + 1 < j ∧ j + 1 < vs.length + i ∧ (edges vs)[i]? = some e ∧ (edges vs)[j]? = some f

/-- Two edges that do not follow one another have a point in common. -/
def SelfTouching (vs : List (Vec2 K)) : Prop :=
  ∃ e f x, NotNeighbours vs e f ∧ OnEdge e x ∧ OnEdge f x

/-- The directions of two edges are not parallel (in particular neither edge is a single point). -/
def NotParallel (e f : Vec2 K × Vec2 K) : Prop :=
  (e.2.x - e.1.x) * (f.2.y - f.1.y) ≠ (e.2.y - e.1.y) * (f.2.x - f.1.x)

/-- `x` is the end of the edge furthest to the right (for a vertical edge its upper end). -/
def RightEnd (e : Vec2 K × Vec2 K) (x : Vec2 K) : Prop := (x = e.1 ∨ x = e.2) ∧ LexLe e.1 x ∧ LexLe e.2 x

/-- `x` is the end of the edge furthest to the left (for a vertical edge its lower end). -/
def LeftEnd (e : Vec2 K × Vec2 K) (x : Vec2 K) : Prop := (x = e.1 ∨ x = e.2) ∧ LexLe x e.1 ∧ LexLe x e.2

end Planar.Spec
