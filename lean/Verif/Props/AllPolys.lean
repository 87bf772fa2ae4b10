import Verif.Props.Triangle
import Verif.Props.Region
/- C48, C49 and C54 for polygons with any number of vertices, triangles included. -/
set_option linter.unusedSectionVars false
namespace Planar
open Spec Polygon
variable {K : Type} [Field K] [LinearOrder K] [IsStrictOrderedRing K]

/-- Four or more vertices, or a triangle whose vertices are at least EPSILON apart from one another. -/
def Wide (eps : K) (vs : List (Vec2 K)) : Prop :=
  4 ≤ vs.length ∨ (vs.length = 3 ∧
    vs.Pairwise fun a b => eps * eps ≤ (a.x - b.x) * (a.x - b.x) + (a.y - b.y) * (a.y - b.y))

/-- Three vertices can be put in order. -/
theorem exists_sorted {vs : List (Vec2 K)} (h : vs.length = 3) :
    ∃ lo mid hi, vs.Perm [lo, mid, hi] ∧ YXLe lo mid ∧ YXLe mid hi := by
  obtain ⟨a, b, c, rfl⟩ := List.length_eq_three.mp h
  have p132 : [a, b, c].Perm [a, c, b] := (List.Perm.swap c b []).cons a
  have p213 : [a, b, c].Perm [b, a, c] := List.Perm.swap b a [c]
  have p231 : [a, b, c].Perm [b, c, a] := p213.trans ((List.Perm.swap c a []).cons b)
  have p312 : [a, b, c].Perm [c, a, b] := p132.trans (List.Perm.swap c a [b])
  have p321 : [a, b, c].Perm [c, b, a] := p312.trans ((List.Perm.swap b a []).cons c)
  rcases YXLe.total a b with h1 | h1 <;> rcases YXLe.total b c with h2 | h2 <;> rcases YXLe.total a c with h3 | h3
  · exact ⟨a, b, c, .refl _, h1, h2⟩
  · exact ⟨a, b, c, .refl _, h1, h2⟩
  · exact ⟨a, c, b, p132, h3, h2⟩
  · exact ⟨c, a, b, p312, h3, h1⟩
  · exact ⟨b, a, c, p213, h1, h3⟩
  · exact ⟨b, c, a, p231, h2, h3⟩
  · exact ⟨c, b, a, p321, h2, h1⟩
  · exact ⟨c, b, a, p321, h2, h1⟩

/-- **C48** for every polygon with three or more vertices (a triangle not within EPSILON) and nothing cached,
`contains_point` of a vector answers by the winding rule. -/
theorem C48_all (eps : K) (vs : List (Vec2 K)) (h : Wide eps vs) (p : Vec2 K) :
    ((Polygon.fromPoints vs).containsPoint eps (.vec p)).1 = .ok (winding vs p != 0) := by
  rcases h with h | ⟨h3, hp⟩
  · exact C48_winding eps vs h (.vec p)
  · obtain ⟨lo, mid, hi, hperm, h1, h2⟩ := exists_sorted h3
    have hp' : [lo, mid, hi].Pairwise fun a b => eps * eps ≤ (a.x - b.x) * (a.x - b.x) + (a.y - b.y) * (a.y - b.y) :=
      (hperm.pairwise_iff (fun {a b} h => by linarith)).mp hp
    simp only [List.pairwise_cons, List.mem_cons, List.not_mem_nil, or_false, forall_eq_or_imp, forall_eq] at hp'
    refine C50_triangle_partial eps vs lo mid hi hperm h1 h2 ?_ ?_ p
    · exact decide_eq_false (not_lt.mpr hp'.1.1)
    · refine decide_eq_false (not_lt.mpr ?_)
      have := hp'.2.1
      simp only [Vec2.length2, eps2, Vec2.sub_x, Vec2.sub_y]; linarith

/-- **C49** for every polygon with three or more vertices, also a triangle within EPSILON: a vector that
`contains_point` accepts is in the convex hull of the vertices. -/
theorem C49_all (eps : K) (vs : List (Vec2 K)) (h : 3 ≤ vs.length) (p : Vec2 K)
    (hc : ((Polygon.fromPoints vs).containsPoint eps (.vec p)).1 = .ok true) : InHull vs p := by
  by_cases h4 : 4 ≤ vs.length
  · exact C49_in_hull eps vs h4 (.vec p) hc
  · have h3 : vs.length = 3 := by omega
    obtain ⟨lo, mid, hi, hperm, h1, h2⟩ := exists_sorted h3
    by_cases hn : (lo - mid).isNull eps = true ∨ (hi - mid).isNull eps = true
    · rw [C50_tiny_violated eps vs lo mid hi hperm h1 h2 hn] at hc; cases hc
    · push Not at hn
      rw [C50_triangle_partial eps vs lo mid hi hperm h1 h2 (by simpa using hn.1) (by simpa using hn.2) p] at hc
      simp only [Except.ok.injEq, bne_iff_ne] at hc
      exact inHull_of_winding hc

/-- **C54** for triangles and larger polygons alike: near every point there is one off all the boundaries to which each
polygon gives the same answer. -/
theorem C54_generic_all (eps : K) (ps : List (List (Vec2 K))) (h4 : ∀ vs ∈ ps, Wide eps vs) (p : Vec2 K)
    (r : K) (hr : 0 < r) :
    ∃ q : Vec2 K, |q.x - p.x| < r ∧ |q.y - p.y| < r ∧ ∀ vs ∈ ps,
      ((Polygon.fromPoints vs).containsPoint eps (.vec q)).1 = ((Polygon.fromPoints vs).containsPoint eps (.vec p)).1 ∧
      ∀ e ∈ edges vs, ¬ OnEdge e q := by
  obtain ⟨q, h1, h2, H⟩ := perturb_windings ps p r hr
  refine ⟨q, h1, h2, fun vs hvs => ⟨?_, (H vs hvs).2⟩⟩
  rw [C48_all eps vs (h4 vs hvs), C48_all eps vs (h4 vs hvs), (H vs hvs).1]

/-- **C54** so two polygons (triangles included) that share no point off their boundaries never both contain a point. -/
theorem C54_disjoint_all (eps : K) (vs ws : List (Vec2 K)) (hv : Wide eps vs) (hw : Wide eps ws)
    (hdis : ∀ q : Vec2 K, (∀ e ∈ edges vs, ¬ OnEdge e q) → (∀ e ∈ edges ws, ¬ OnEdge e q) →
      ¬ (((Polygon.fromPoints vs).containsPoint eps (.vec q)).1 = .ok true ∧
        ((Polygon.fromPoints ws).containsPoint eps (.vec q)).1 = .ok true)) (p : Vec2 K) :
    ¬ (((Polygon.fromPoints vs).containsPoint eps (.vec p)).1 = .ok true ∧
        ((Polygon.fromPoints ws).containsPoint eps (.vec p)).1 = .ok true) := by
  obtain ⟨q, -, -, H⟩ := C54_generic_all eps [vs, ws] (by simp [hv, hw]) p 1 one_pos
  have e1 := H vs (by simp)
  have e2 := H ws (by simp)
  rw [← e1.1, ← e2.1]
  exact hdis q e1.2 e2.2

/-- **C54** cutting along a chord, triangles included: each point of the polygon is claimed by exactly one part and no
other point by any (for winding numbers 0 and `σ` only). In particular a quadrilateral cut along a diagonal. -/
theorem C54_partition_all (eps : K) (a b : Vec2 K) (l m : List (Vec2 K))
    (hw : Wide eps (a :: l ++ b :: m)) (hw1 : Wide eps (a :: l ++ [b])) (hw2 : Wide eps (b :: m ++ [a]))
    (p : Vec2 K) (σ : Int) (hσ : σ ≠ 0) (h : winding (a :: l ++ b :: m) p = 0 ∨ winding (a :: l ++ b :: m) p = σ)
    (h1 : winding (a :: l ++ [b]) p = 0 ∨ winding (a :: l ++ [b]) p = σ)
    (h2 : winding (b :: m ++ [a]) p = 0 ∨ winding (b :: m ++ [a]) p = σ) :
    (((Polygon.fromPoints (a :: l ++ b :: m)).containsPoint eps (.vec p)).1 = .ok true ↔
      Xor (((Polygon.fromPoints (a :: l ++ [b])).containsPoint eps (.vec p)).1 = .ok true)
        (((Polygon.fromPoints (b :: m ++ [a])).containsPoint eps (.vec p)).1 = .ok true)) ∧
    ¬ (((Polygon.fromPoints (a :: l ++ [b])).containsPoint eps (.vec p)).1 = .ok true ∧
        ((Polygon.fromPoints (b :: m ++ [a])).containsPoint eps (.vec p)).1 = .ok true) := by
  have hc := C54_chord a b l m p
  rw [C48_all eps _ hw, C48_all eps _ hw1, C48_all eps _ hw2]
  simp only [Except.ok.injEq, bne_iff_ne, xor_def]
  generalize winding (a :: l ++ b :: m) p = w at *
  generalize winding (a :: l ++ [b]) p = w1 at *
  generalize winding (b :: m ++ [a]) p = w2 at *
  constructor
  · constructor
    · intro _; omega
    · rintro (⟨_, _⟩ | ⟨_, _⟩) <;> omega
  · omega

/-- **C61** a point strictly left of all three edges of a triangle (or strictly right) is inside. -/
theorem C61_interior_triangle (eps : K) (vs : List (Vec2 K)) (h : Wide eps vs) (p : Vec2 K)
    (hin : (∀ e ∈ edges vs, 0 < side e.1 e.2 p) ∨ (∀ e ∈ edges vs, side e.1 e.2 p < 0)) (hne : vs ≠ []) :
    ((Polygon.fromPoints vs).containsPoint eps (.vec p)).1 = .ok true := by
  rw [C48_all eps vs h]
  have : winding vs p ≠ 0 := hin.elim (winding_of_left hne) (winding_of_right hne)
  simp [this]

/-- The unit square cut along a diagonal: both triangles are wide. -/
example : Wide (1/1000 : ℚ) ([⟨0, 0⟩, ⟨1, 0⟩] ++ [⟨1, 1⟩]) ∧ Wide (1/1000 : ℚ) ([⟨1, 1⟩, ⟨0, 1⟩] ++ [⟨0, 0⟩]) ∧
    ∃ w : Int, w = winding ([⟨0, 0⟩, ⟨1, 0⟩] ++ [(⟨1, 1⟩ : Vec2 ℚ)]) ⟨1/2, 1/2⟩ := by
  refine ⟨.inr ⟨rfl, ?_⟩, .inr ⟨rfl, ?_⟩, _, rfl⟩ <;> norm_num

/-- On the diagonal only one of the two triangles claims the point. -/
example : winding [⟨0, 0⟩, ⟨1, 0⟩, (⟨1, 1⟩ : Vec2 ℚ)] ⟨1/2, 1/2⟩ = -1 ∧
    winding [⟨1, 1⟩, ⟨0, 1⟩, (⟨0, 0⟩ : Vec2 ℚ)] ⟨1/2, 1/2⟩ = 0 := by decide +kernel

end Planar
