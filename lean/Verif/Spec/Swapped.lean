import Verif.Spec.Convex
/- When the two chains of a convex polygon are taken for each other. Independent of the model of polygon.py. -/
namespace Planar.Spec
variable {K : Type} [Field K] [LinearOrder K]

/-- `i` is the first position at which `f` is least. -/
def FirstAt (f : Vec2 K → K) (vs : List (Vec2 K)) (i : Nat) : Prop :=
  ∃ v, vs[i]? = some v ∧ (∀ w ∈ vs, f v ≤ f w) ∧ ∀ j w, j < i → vs[j]? = some w → f v < f w

/-- No vertex is on the right of an edge. -/
def Anticlockwise (vs : List (Vec2 K)) : Prop := ∀ e ∈ edges vs, ∀ v ∈ vs, 0 ≤ side e.1 e.2 v

/-- No vertex is on the left of an edge. -/
def Clockwise (vs : List (Vec2 K)) : Prop := ∀ e ∈ edges vs, ∀ v ∈ vs, side e.1 e.2 v ≤ 0

/-- The leftmost vertex is the lowest one, and the polygon is listed anticlockwise with its lowest vertex before its
highest, or clockwise with its highest before its lowest; or the leftmost vertex is the highest one and the rightmost
the lowest, and the polygon is listed clockwise with its lowest vertex before its highest, or anticlockwise with its
highest before its lowest. (Among equals the first one counts.) -/
def Swapped (vs : List (Vec2 K)) : Prop :=
  ∃ lowest highest leftmost rightmost : Nat, FirstAt (fun v => v.y) vs lowest ∧ FirstAt (fun v => -v.y) vs highest ∧
    FirstAt (fun v => v.x) vs leftmost ∧ FirstAt (fun v => -v.x) vs rightmost ∧
    ((leftmost = lowest ∧
        (lowest < highest ∧ Anticlockwise vs ∨ highest < lowest ∧ Clockwise vs)) ∨
      (leftmost = highest ∧ rightmost = lowest ∧
        (lowest < highest ∧ Clockwise vs ∨ highest < lowest ∧ Anticlockwise vs)))

end Planar.Spec
