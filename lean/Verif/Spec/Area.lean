import Verif.Spec.Polygon
/- Signed area and first moments of a closed path (shoelace formulas). Independent of the model of polygon.py. -/
namespace Planar.Spec
variable {K : Type} [Field K]

/-- Twice the signed area of the triangle from the origin over an edge. -/
def wedge (e : Vec2 K × Vec2 K) : K := e.1.x * e.2.y - e.2.x * e.1.y

/-- Twice the signed area enclosed by the closed path. -/
def area2 (vs : List (Vec2 K)) : K := ((edges vs).map wedge).sum

/-- Six times the integral of `x` over the enclosed region (signed). -/
def momentX (vs : List (Vec2 K)) : K := ((edges vs).map fun e => (e.1.x + e.2.x) * wedge e).sum

/-- Six times the integral of `y` over the enclosed region (signed). -/
def momentY (vs : List (Vec2 K)) : K := ((edges vs).map fun e => (e.1.y + e.2.y) * wedge e).sum

/-- The area centroid: the integral of the position over the region divided by its area. -/
def areaCentroid (vs : List (Vec2 K)) : Vec2 K := ⟨momentX vs / (3 * area2 vs), momentY vs / (3 * area2 vs)⟩

end Planar.Spec
