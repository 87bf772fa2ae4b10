import Verif.Model.Vec2
import Mathlib.Algebra.Order.Field.Basic
/- Polygons as closed paths: edges, winding numbers, convex hulls. Independent of the model of polygon.py. -/
namespace Planar.Spec
variable {K : Type}

/-- The edges of the open path that starts at `a` and visits the listed points. -/
def edgesFrom (a : Vec2 K) : List (Vec2 K) → List (Vec2 K × Vec2 K)
  | [] => []
  | b :: rest => (a, b) :: edgesFrom b rest

/-- The edges of the closed path through the vertices: from the last vertex to the first, from the first to the
second, ... -/
def edges (vs : List (Vec2 K)) : List (Vec2 K × Vec2 K) :=
  match vs.getLast? with
  | none => []
  | some z => edgesFrom z vs

section
variable [Field K] [LinearOrder K]

/-- Where the line through `a` and `b` meets the horizontal line at height `y`. -/
def crossX (a b : Vec2 K) (y : K) : K := a.x + (b.x - a.x) * ((y - a.y) / (b.y - a.y))

/-- The contribution of the edge from `a` to `b` to the winding number of `p`: +1 if it crosses the leftward horizontal
ray from `p` upwards, -1 if downwards, else 0. An end point exactly at the height of `p` counts as above it; a crossing
exactly at `p` counts. -/
def crossing (p : Vec2 K) (e : Vec2 K × Vec2 K) : Int :=
  if e.1.y < p.y ∧ p.y ≤ e.2.y ∧ crossX e.1 e.2 p.y ≤ p.x then 1
  else if e.2.y < p.y ∧ p.y ≤ e.1.y ∧ crossX e.1 e.2 p.y ≤ p.x then -1
  else 0

/-- The winding number of the closed path around `p`: the signed number of boundary crossings of the leftward ray. -/
def winding (vs : List (Vec2 K)) (p : Vec2 K) : Int := ((edges vs).map (crossing p)).sum

/-- `p` is on the closed edge `e`. -/
def OnEdge (e : Vec2 K × Vec2 K) (p : Vec2 K) : Prop :=
  ∃ t : K, 0 ≤ t ∧ t ≤ 1 ∧ p.x = e.1.x + t * (e.2.x - e.1.x) ∧ p.y = e.1.y + t * (e.2.y - e.1.y)

/-- The convex hull of a list of points: the points and everything between two points of the hull. -/
inductive InHull (vs : List (Vec2 K)) : Vec2 K → Prop
  | vertex (v : Vec2 K) (h : v ∈ vs) : InHull vs v
  | between (p q : Vec2 K) (t : K) (hp : InHull vs p) (hq : InHull vs q) (h0 : 0 ≤ t) (h1 : t ≤ 1) :
      InHull vs ⟨p.x + t * (q.x - p.x), p.y + t * (q.y - p.y)⟩
end

end Planar.Spec
