import Verif.Props.Winding
import Verif.Lemmas.ExactDist
import Verif.Lemmas.ClearDouble
/- The winding number around a point does not change when the vertices of a polygon are moved by less than the distance of
the point from the boundary. -/
set_option linter.unusedSectionVars false
namespace Planar
open Spec

section Field
variable {K : Type} [Field K] [LinearOrder K] [IsStrictOrderedRing K]

theorem crossing_twice (a b p : Vec2 K) : crossing p (a, b) + crossing p (b, a) = 0 := by
  have h := (C48_invariance [a, b] p ⟨0, 0⟩ 0).2.1
  have h2 := (C48_invariance [a, b] p ⟨0, 0⟩ 1).1
  simp only [winding, edges, edgesFrom, List.reverse_cons, List.reverse_nil, List.nil_append, List.cons_append,
    List.getLast?_cons_cons, List.getLast?_singleton, List.map_cons, List.map_nil, List.sum_cons, List.sum_nil,
    List.rotate_cons_succ, List.rotate_zero] at h h2
  omega

/-- The four edges of a quadrilateral. -/
theorem winding_quad (a b c d p : Vec2 K) :
    winding [a, b, c, d] p = crossing p (d, a) + crossing p (a, b) + crossing p (b, c) + crossing p (c, d) := by
  simp only [winding, edges, edgesFrom, List.getLast?_cons_cons, List.getLast?_singleton, List.map_cons, List.map_nil,
    List.sum_cons, List.sum_nil]
  omega

/-- Moving the vertices of a path: the crossings change by those of the rungs at the ends, if the point is in none of the
quadrilaterals between the two paths. -/
theorem ladder (p : Vec2 K) {R : Vec2 K → Vec2 K → Prop} {Q : Vec2 K → Vec2 K → Prop}
    (H : ∀ a A b B, R a A → R b B → Q A B → winding [a, b, B, A] p = 0) {vs Vs : List (Vec2 K)} (h : List.Forall₂ R vs Vs) :
    ∀ {a A : Vec2 K}, R a A → (∀ E ∈ edgesFrom A Vs, Q E.1 E.2) →
    ((edgesFrom a vs).map (crossing p)).sum + crossing p (A, a) =
      ((edgesFrom A Vs).map (crossing p)).sum + crossing p (Vs.getLastD A, vs.getLastD a) := by
  induction h with
  | nil => intro a A _ _; simp [edgesFrom]
  | @cons v V vs Vs hv _ ih =>
    intro a A ha hQ
    have e1 := ih hv (fun E hE => hQ E (List.mem_cons_of_mem _ hE))
    have e2 := H a A v V ha hv (hQ (A, V) List.mem_cons_self)
    rw [winding_quad] at e2
    have e3 := crossing_twice A V p
    have e4 := crossing_twice v V p
    simp only [edgesFrom, List.map_cons, List.sum_cons, List.getLastD_cons]
    omega

/-- The same for closed paths. -/
theorem winding_moved (p : Vec2 K) {R : Vec2 K → Vec2 K → Prop} {Q : Vec2 K → Vec2 K → Prop}
    (H : ∀ a A b B, R a A → R b B → Q A B → winding [a, b, B, A] p = 0) {vs Vs : List (Vec2 K)} (h : List.Forall₂ R vs Vs)
    (hQ : ∀ E ∈ edges Vs, Q E.1 E.2) : winding vs p = winding Vs p := by
  unfold winding
  rcases List.eq_nil_or_concat vs with rfl | ⟨vs', z, rfl⟩
  · cases h; rfl
  · rcases List.eq_nil_or_concat Vs with rfl | ⟨Vs', Z, rfl⟩
    · simp at h
    · have hz : R z Z := by
        have := List.rel_reverse h
        simp only [List.concat_eq_append, List.reverse_append, List.reverse_singleton, List.singleton_append] at this
        cases this; assumption
      simp only [List.concat_eq_append] at *
      rw [edges_snoc] at hQ ⊢
      rw [edges_snoc]
      have := ladder p H h hz hQ
      simp only [List.getLastD_concat] at this
      omega

end Field

/-! ### Distances -/

/-- Points within `d` of a segment: between two of them there are only such points. -/
theorem near_between {A B p q P Q : Vec2 ℝ} {d : ℝ} (hP : OnSeg A B P) (hQ : OnSeg A B Q) (h1 : gap p P ≤ d) (h2 : gap q Q ≤ d)
    {t : ℝ} (h0 : 0 ≤ t) (h1' : t ≤ 1) :
    ∃ W, OnSeg A B W ∧ gap ⟨p.x + t * (q.x - p.x), p.y + t * (q.y - p.y)⟩ W ≤ d := by
  obtain ⟨s, s0, s1, sx, sy⟩ := hP
  obtain ⟨u, u0, u1, ux, uy⟩ := hQ
  refine ⟨⟨P.x + t * (Q.x - P.x), P.y + t * (Q.y - P.y)⟩, ⟨s + t * (u - s), ?_, ?_, ?_, ?_⟩, ?_⟩
  · nlinarith [mul_nonneg h0 u0, mul_nonneg (sub_nonneg.mpr h1') s0]
  · nlinarith [mul_nonneg h0 (sub_nonneg.mpr u1), mul_nonneg (sub_nonneg.mpr h1') (sub_nonneg.mpr s1)]
  · simp only [sx, ux]; ring
  · simp only [sy, uy]; ring
  · have hd : 0 ≤ d := (Real.sqrt_nonneg _).trans h1
    unfold gap vlen at h1 h2 ⊢
    rw [Real.sqrt_le_left hd] at h1 h2 ⊢
    simp only at h1 h2 ⊢
    set a := p.x - P.x
    set b := p.y - P.y
    set a' := q.x - Q.x
    set b' := q.y - Q.y
    have ex : p.x + t * (q.x - p.x) - (P.x + t * (Q.x - P.x)) = (1 - t) * a + t * a' := by simp only [a, a']; ring
    have ey : p.y + t * (q.y - p.y) - (P.y + t * (Q.y - P.y)) = (1 - t) * b + t * b' := by simp only [b, b']; ring
    rw [ex, ey]
    have k1 := mul_le_mul_of_nonneg_left h1 (sub_nonneg.mpr h1')
    have k2 := mul_le_mul_of_nonneg_left h2 h0
    nlinarith [mul_nonneg (mul_nonneg h0 (sub_nonneg.mpr h1')) (add_nonneg (mul_self_nonneg (a - a')) (mul_self_nonneg (b - b')))]

/-- A point that is farther than `d` from the segment is in no quadrilateral with corners within `d` of the segment. -/
theorem far_quad {d : ℝ} {a A b B p : Vec2 ℝ} (ha : gap a A ≤ d) (hb : gap b B ≤ d) (hfar : ∀ q, OnSeg A B q → d < gap p q) :
    winding [a, b, B, A] p = 0 := by
  by_contra hw
  have hd : 0 ≤ d := (Real.sqrt_nonneg _).trans ha
  have h0 : ∀ q, gap q q = 0 := by intro q; simp [gap, vlen]
  have key : ∀ q, InHull [a, b, B, A] q → ∃ W, OnSeg A B W ∧ gap q W ≤ d := by
    intro q hq
    have sA : OnSeg A B A := ⟨0, le_rfl, zero_le_one, by simp, by simp⟩
    have sB : OnSeg A B B := ⟨1, zero_le_one, le_rfl, by simp, by simp⟩
    induction hq with
    | vertex v hv =>
      simp only [List.mem_cons, List.not_mem_nil, or_false] at hv
      rcases hv with rfl | rfl | rfl | rfl
      · exact ⟨A, sA, ha⟩
      · exact ⟨B, sB, hb⟩
      · exact ⟨_, sB, by rw [h0]; exact hd⟩
      · exact ⟨_, sA, by rw [h0]; exact hd⟩
    | between p q t _ _ h1 h2 i1 i2 =>
      obtain ⟨P, hP, gP⟩ := i1
      obtain ⟨Q, hQ, gQ⟩ := i2
      exact near_between hP hQ gP gQ h1 h2
  obtain ⟨W, hW, gW⟩ := key p (inHull_of_winding hw)
  exact absurd gW (not_le.mpr (hfar W hW))

/-- Vertices moved by at most `d`, and a point farther than `d` from the edges. -/
theorem winding_near {d : ℝ} {vs Vs : List (Vec2 ℝ)} (h : List.Forall₂ (fun v V => gap v V ≤ d) vs Vs) {p : Vec2 ℝ}
    (hfar : ∀ E ∈ edges Vs, ∀ q, OnSeg E.1 E.2 q → d < gap p q) : winding vs p = winding Vs p :=
  winding_moved p (R := fun v V => gap v V ≤ d) (Q := fun A B => ∀ q, OnSeg A B q → d < gap p q)
    (fun _ _ _ _ ha hb hQ => far_quad ha hb hQ) h hfar

/-- Edges of paths with related vertices. -/
theorem edgesFrom_rel {α β : Type} {R : Vec2 α → Vec2 β → Prop} {vs : List (Vec2 α)} {Vs : List (Vec2 β)} (h : List.Forall₂ R vs Vs) :
    ∀ {a A}, R a A → List.Forall₂ (fun e E => R e.1 E.1 ∧ R e.2 E.2) (edgesFrom a vs) (edgesFrom A Vs) := by
  induction h with
  | nil => intro a A _; exact .nil
  | cons hv _ ih => intro a A ha; exact .cons ⟨ha, hv⟩ (ih hv)

theorem edges_rel {α β : Type} {R : Vec2 α → Vec2 β → Prop} {vs : List (Vec2 α)} {Vs : List (Vec2 β)} (h : List.Forall₂ R vs Vs) :
    List.Forall₂ (fun e E => R e.1 E.1 ∧ R e.2 E.2) (edges vs) (edges Vs) := by
  rcases List.eq_nil_or_concat vs with rfl | ⟨vs', z, rfl⟩
  · cases h; exact .nil
  · rcases List.eq_nil_or_concat Vs with rfl | ⟨Vs', Z, rfl⟩
    · simp at h
    · have hz : R z Z := by
        have := List.rel_reverse h
        simp only [List.concat_eq_append, List.reverse_append, List.reverse_singleton, List.singleton_append] at this
        cases this; assumption
      simp only [List.concat_eq_append] at *
      unfold edges
      simp only [List.getLast?_append, List.getLast?_singleton, Option.some_or]
      exact edgesFrom_rel h hz

theorem forall2_mem {α β : Type} {R : α → β → Prop} {l : List α} {m : List β} (h : List.Forall₂ R l m) {a : α} (ha : a ∈ l) :
    ∃ b ∈ m, R a b := by
  induction h with
  | nil => simp at ha
  | cons hv _ ih =>
    rcases List.mem_cons.mp ha with rfl | ha
    · exact ⟨_, List.mem_cons_self, hv⟩
    · obtain ⟨b, hb, r⟩ := ih ha
      exact ⟨b, List.mem_cons_of_mem _ hb, r⟩

/-! ### Rational and real coordinates -/

/-- A point with rational coordinates as one with real coordinates. -/
noncomputable def castVec (v : Vec2 ℚ) : Vec2 ℝ := ⟨v.x, v.y⟩

theorem crossing_cast (p : Vec2 ℚ) (e : Vec2 ℚ × Vec2 ℚ) : crossing (castVec p) (castVec e.1, castVec e.2) = crossing p e := by
  have hx : crossX (castVec e.1) (castVec e.2) (castVec p).y = ((crossX e.1 e.2 p.y : ℚ) : ℝ) := by
    simp only [crossX, castVec]; push_cast; ring
  unfold crossing
  simp only [hx]
  simp only [castVec, Rat.cast_lt, Rat.cast_le]

theorem edgesFrom_cast (vs : List (Vec2 ℚ)) : ∀ a, edgesFrom (castVec a) (vs.map castVec) =
    (edgesFrom a vs).map fun e => (castVec e.1, castVec e.2) := by
  induction vs with
  | nil => intro a; rfl
  | cons v vs ih => intro a; simp only [List.map_cons, edgesFrom, ih]

theorem winding_cast (vs : List (Vec2 ℚ)) (p : Vec2 ℚ) : winding (vs.map castVec) (castVec p) = winding vs p := by
  unfold winding edges
  rw [List.getLast?_map]
  cases vs.getLast? with
  | none => rfl
  | some z =>
    simp only [Option.map_some, edgesFrom_cast, List.map_map]
    congr 1
    apply List.map_congr_left
    intro e _
    exact crossing_cast p e

end Planar
