import Verif.Spec.Polygon
import Mathlib.Data.List.Rotate
/- Convex closed paths. Independent of the model of polygon.py. -/
namespace Planar.Spec
variable {K : Type} [Field K] [LinearOrder K]

/-- Twice the signed area of the triangle `a b p`: positive when `p` is on the left of the line from `a` to `b`,
negative on the right, zero on the line. -/
def side (a b p : Vec2 K) : K := (b.x - a.x) * (p.y - a.y) - (b.y - a.y) * (p.x - a.x)

/-- From left to right, points with the same abscissa upwards. -/
def LexLe (a b : Vec2 K) : Prop := a.x < b.x ∨ (a.x = b.x ∧ a.y ≤ b.y)

/-- All vertices lie on the same side of every edge. -/
def OneSided (vs : List (Vec2 K)) : Prop :=
  (∀ e ∈ edges vs, ∀ v ∈ vs, 0 ≤ side e.1 e.2 v) ∨ (∀ e ∈ edges vs, ∀ v ∈ vs, side e.1 e.2 v ≤ 0)

/-- The boundary is traversed once: from a suitable edge on, it first goes from left to right and then from right to
left. -/
def OnceAround (vs : List (Vec2 K)) : Prop :=
  ∃ there back : List (Vec2 K × Vec2 K), (edges vs).IsRotated (there ++ back) ∧
    (∀ e ∈ there, LexLe e.1 e.2) ∧ (∀ e ∈ back, LexLe e.2 e.1)

/-- A convex polygon. -/
def Convex (vs : List (Vec2 K)) : Prop := OneSided vs ∧ OnceAround vs

/-- All the vertices lie on one line (or all are equal). -/
def Flat (vs : List (Vec2 K)) : Prop := ∀ a ∈ vs, ∀ b ∈ vs, ∀ c ∈ vs, side a b c = 0

/-- `v` is the first vertex at which `f` is least. -/
def IsFirst (f : Vec2 K → K) (vs : List (Vec2 K)) (v : Vec2 K) : Prop :=
  ∃ before after, vs = before ++ v :: after ∧ (∀ w ∈ vs, f v ≤ f w) ∧ ∀ w ∈ before, f v < f w

/-- The leftmost vertex is not the lowest one, and when it is the highest one the rightmost is not the lowest (among
equals the first one counts). -/
def Clear (vs : List (Vec2 K)) : Prop :=
  ∀ lowest highest leftmost rightmost, IsFirst (fun v => v.y) vs lowest → IsFirst (fun v => -v.y) vs highest →
    IsFirst (fun v => v.x) vs leftmost → IsFirst (fun v => -v.x) vs rightmost →
    leftmost ≠ lowest ∧ ¬ (leftmost = highest ∧ rightmost = lowest)

end Planar.Spec
