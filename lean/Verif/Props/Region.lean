import Verif.Lemmas.WindConst
/- Property C61: contains_point is constant on the regions the boundary cuts out of the plane. -/
set_option linter.unusedSectionVars false
namespace Planar
open Spec
open Polygon
variable {K : Type} [Field K] [LinearOrder K] [IsStrictOrderedRing K]

/-- **C61** `contains_point` gives the same answer at the two ends of every segment that does not touch the boundary. -/
theorem C61_region (eps : K) (vs : List (Vec2 K)) (s : Polygon K) (h : Polygon.new vs = .ok s) (h4 : 4 ≤ vs.length) (p q : PyPoint K)
    (hfree : ∀ x, OnEdge (p.toVec, q.toVec) x → ∀ e ∈ edges vs, ¬ OnEdge e x) :
    (s.containsPoint eps p).1 = (s.containsPoint eps q).1 := by
  obtain ⟨s', hs, -, hp⟩ := C48_winding_new eps vs h4 p
  obtain ⟨s'', hs', -, hq⟩ := C48_winding_new eps vs h4 q
  rw [h] at hs hs'
  injection hs with hs
  injection hs' with hs'
  subst hs hs'
  rw [hp, hq, winding_const fun e he x hx => hfree x hx e he]

/-- **C61** the same for triangles whose edges at the middle vertex are not null within EPSILON. -/
theorem C61_region_triangle (eps : K) (vs : List (Vec2 K)) (lo mid hi : Vec2 K) (hp : vs.Perm [lo, mid, hi])
    (h1 : YXLe lo mid) (h2 : YXLe mid hi) (n1 : (lo - mid).isNull eps = false) (n2 : (hi - mid).isNull eps = false)
    (p q : Vec2 K) (hfree : ∀ x, OnEdge (p, q) x → ∀ e ∈ edges vs, ¬ OnEdge e x) :
    ((Polygon.fromPoints vs).containsPoint eps (.vec p)).1 = ((Polygon.fromPoints vs).containsPoint eps (.vec q)).1 := by
  rw [C50_triangle_partial eps vs lo mid hi hp h1 h2 n1 n2, C50_triangle_partial eps vs lo mid hi hp h1 h2 n1 n2,
    winding_const fun e he x hx => hfree x hx e he]

/-- A point strictly on the right of every edge. -/
theorem winding_of_right {vs : List (Vec2 K)} (hne : vs ≠ []) {p : Vec2 K} (h : ∀ e ∈ edges vs, side e.1 e.2 p < 0) :
    winding vs p ≠ 0 := by
  have hr := (C48_invariance vs p ⟨0, 0⟩ 0).2.1
  have : winding vs.reverse p ≠ 0 := by
    apply winding_of_left (by simpa using hne)
    intro e he
    rw [(edges_reverse_perm vs).mem_iff] at he
    obtain ⟨⟨a, b⟩, he', rfl⟩ := List.mem_map.mp he
    have := h _ he'
    simp only [Prod.swap, side] at this ⊢
    linarith
  omega

/-- **C61** a point strictly on one and the same side of every edge is inside. -/
theorem C61_interior (eps : K) (vs : List (Vec2 K)) (s : Polygon K) (h : Polygon.new vs = .ok s) (h4 : 4 ≤ vs.length) (p : PyPoint K)
    (hin : (∀ e ∈ edges vs, 0 < side e.1 e.2 p.toVec) ∨ (∀ e ∈ edges vs, side e.1 e.2 p.toVec < 0)) :
    (s.containsPoint eps p).1 = .ok true := by
  have hne : vs ≠ [] := by rintro rfl; simp at h4
  obtain ⟨s', hs, -, hp⟩ := C48_winding_new eps vs h4 p
  rw [h] at hs
  injection hs with hs
  subst hs
  rw [hp]
  congr 1
  rw [bne_iff_ne]
  rcases hin with hin | hin
  · exact winding_of_left hne hin
  · exact winding_of_right hne hin

/-- **C61** a point strictly on the outer side of some edge of a convex polygon is outside. -/
theorem C61_exterior (eps : K) (vs : List (Vec2 K)) (s : Polygon K) (h : Polygon.new vs = .ok s) (h4 : 4 ≤ vs.length) (p : PyPoint K)
    (hout : (∀ e ∈ edges vs, ∀ v ∈ vs, 0 ≤ side e.1 e.2 v) ∧ (∃ e ∈ edges vs, side e.1 e.2 p.toVec < 0) ∨
      (∀ e ∈ edges vs, ∀ v ∈ vs, side e.1 e.2 v ≤ 0) ∧ (∃ e ∈ edges vs, 0 < side e.1 e.2 p.toVec)) :
    (s.containsPoint eps p).1 = .ok false := by
  have hne : vs ≠ [] := by rintro rfl; simp at h4
  obtain ⟨s', hs, -, hp⟩ := C48_winding_new eps vs h4 p
  rw [h] at hs
  injection hs with hs
  subst hs
  rw [hp]
  congr 1
  by_contra hw
  have hw : winding vs p.toVec ≠ 0 := by
    intro h0; apply hw; rw [h0]; rfl
  have hull := inHull_of_winding hw
  rcases hout with ⟨hv, e, he, hlt⟩ | ⟨hv, e, he, hlt⟩
  · have := inHull_halfplane hull (a := e.2.y - e.1.y) (b := -(e.2.x - e.1.x)) (c := (e.2.y - e.1.y) * e.1.x - (e.2.x - e.1.x) * e.1.y)
      fun v hv' => by have := hv e he v hv'; unfold side at this; linarith
    unfold side at hlt; linarith
  · have := inHull_halfplane hull (a := -(e.2.y - e.1.y)) (b := e.2.x - e.1.x) (c := (e.2.x - e.1.x) * e.1.y - (e.2.y - e.1.y) * e.1.x)
      fun v hv' => by have := hv e he v hv'; unfold side at this; linarith
    unfold side at hlt; linarith

/-- The hypotheses are met: two points inside a non-convex polygon joined by a free segment; a point strictly inside a
square and one outside. -/
example : (∀ x : Vec2 ℚ, OnEdge (⟨1, 1⟩, ⟨3, 1⟩) x →
      ∀ e ∈ edges [⟨0, 0⟩, ⟨4, 0⟩, ⟨4, 4⟩, ⟨2, 2⟩, (⟨0, 4⟩ : Vec2 ℚ)], ¬ OnEdge e x) ∧
    (∀ e ∈ edges [⟨0, 0⟩, ⟨4, 0⟩, ⟨4, 4⟩, (⟨0, 4⟩ : Vec2 ℚ)], 0 < side e.1 e.2 ⟨1, 2⟩) ∧
    (∀ e ∈ edges [⟨0, 0⟩, ⟨4, 0⟩, ⟨4, 4⟩, (⟨0, 4⟩ : Vec2 ℚ)], ∀ v ∈ [⟨0, 0⟩, ⟨4, 0⟩, ⟨4, 4⟩, (⟨0, 4⟩ : Vec2 ℚ)], 0 ≤ side e.1 e.2 v) ∧
    (∃ e ∈ edges [⟨0, 0⟩, ⟨4, 0⟩, ⟨4, 4⟩, (⟨0, 4⟩ : Vec2 ℚ)], side e.1 e.2 ⟨5, 2⟩ < 0) := by
  refine ⟨?_, by decide +kernel, by decide +kernel, by decide +kernel⟩
  rintro x ⟨t, h0, h1, hx, hy⟩ e he ⟨u, u0, u1, ux, uy⟩
  simp only [edges, List.getLast?_cons_cons, List.getLast?_singleton, edgesFrom, List.mem_cons, List.not_mem_nil, or_false] at he
  simp only at hx hy
  rcases he with rfl | rfl | rfl | rfl | rfl <;> simp only at ux uy <;> linarith

end Planar
