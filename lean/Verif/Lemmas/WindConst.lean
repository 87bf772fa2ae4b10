import Verif.Props.Convex
import Verif.Props.Triangle
/- The winding number does not change along a segment that does not meet the boundary; it is not zero at a point strictly
on the left of every edge. -/
set_option linter.unusedSectionVars false
namespace Planar
open Spec
variable {K : Type} [Field K] [LinearOrder K] [IsStrictOrderedRing K]

/-- The segment from `p` to `q` and the edge `e` have no point in common. -/
def Apart (p q : Vec2 K) (e : Vec2 K × Vec2 K) : Prop := ∀ x, OnEdge (p, q) x → ¬ OnEdge e x

theorem Apart.symm {p q : Vec2 K} {e : Vec2 K × Vec2 K} (h : Apart p q e) : Apart q p e := by
  intro x hx
  apply h x
  obtain ⟨t, h0, h1, hx, hy⟩ := hx
  exact ⟨1 - t, by linarith, by linarith, by simp only at hx ⊢; rw [hx]; ring, by simp only at hy ⊢; rw [hy]; ring⟩

theorem Apart.swap {p q : Vec2 K} {a b : Vec2 K} (h : Apart p q (a, b)) : Apart p q (b, a) := by
  intro x hx hx'
  apply h x hx
  obtain ⟨t, h0, h1, hx, hy⟩ := hx'
  exact ⟨1 - t, by linarith, by linarith, by simp only at hx ⊢; rw [hx]; ring, by simp only at hy ⊢; rw [hy]; ring⟩

/-- Points of the edge between two points of the edge are on the edge. -/
theorem onEdge_between {e : Vec2 K × Vec2 K} {u w : Vec2 K} (hu : OnEdge e u) (hw : OnEdge e w) {t : K} (h0 : 0 ≤ t) (h1 : t ≤ 1) :
    OnEdge e ⟨u.x + t * (w.x - u.x), u.y + t * (w.y - u.y)⟩ := by
  obtain ⟨a, a0, a1, ax, ay⟩ := hu
  obtain ⟨b, b0, b1, bx, bby⟩ := hw
  refine ⟨a + t * (b - a), ?_, ?_, ?_, ?_⟩
  · have := mul_nonneg (sub_nonneg.mpr h1) a0
    have := mul_nonneg h0 b0
    linarith
  · have := mul_nonneg (sub_nonneg.mpr h1) (sub_nonneg.mpr a1)
    have := mul_nonneg h0 (sub_nonneg.mpr b1)
    nlinarith
  · simp only; rw [ax, bx]; ring
  · simp only; rw [ay, bby]; ring

/-- A point on the line through `p` and `q` at a height between theirs is between them. -/
theorem onEdge_of_line {p q x : Vec2 K} (hpq : p.y < q.y) (hs : side p q x = 0) (h0 : p.y ≤ x.y) (h1 : x.y ≤ q.y) :
    OnEdge (p, q) x := by
  have hd : 0 < q.y - p.y := by linarith
  refine ⟨(x.y - p.y) / (q.y - p.y), div_nonneg (by linarith) hd.le, (div_le_one hd).mpr (by linarith), ?_, ?_⟩
  · simp only
    unfold side at hs
    field_simp
    linarith
  · simp only; field_simp; ring

theorem same_side {p q : Vec2 K} {e : Vec2 K × Vec2 K} (hpq : p.y < q.y) (h : Apart p q e) {u w : Vec2 K} (hu : OnEdge e u)
    (hw : OnEdge e w) (u0 : p.y ≤ u.y) (u1 : u.y ≤ q.y) (w0 : p.y ≤ w.y) (w1 : w.y ≤ q.y) (hs : 0 ≤ side p q u) :
    0 ≤ side p q w := by
  by_contra hc
  have hc := not_le.mp hc
  have hd : side p q u - side p q w ≠ 0 := by linarith
  have hpos : 0 < side p q u - side p q w := by linarith
  set t := side p q u / (side p q u - side p q w) with ht
  have t0 : 0 ≤ t := div_nonneg hs hpos.le
  have t1 : t ≤ 1 := (div_le_one hpos).mpr (by linarith)
  have htm : t * (side p q u - side p q w) = side p q u := div_mul_cancel₀ _ hd
  have hx := onEdge_between hu hw t0 t1
  refine h _ (onEdge_of_line hpq ?_ ?_ ?_) hx
  · have : side p q ⟨u.x + t * (w.x - u.x), u.y + t * (w.y - u.y)⟩ = side p q u - t * (side p q u - side p q w) := by
      unfold side; ring
    rw [this, htm, sub_self]
  · simp only
    have := mul_nonneg (sub_nonneg.mpr t1) (sub_nonneg.mpr u0)
    have := mul_nonneg t0 (sub_nonneg.mpr w0)
    linarith
  · simp only
    have := mul_nonneg (sub_nonneg.mpr t1) (sub_nonneg.mpr u1)
    have := mul_nonneg t0 (sub_nonneg.mpr w1)
    linarith

theorem same_side_iff {p q : Vec2 K} {e : Vec2 K × Vec2 K} (hpq : p.y < q.y) (h : Apart p q e) {u w : Vec2 K} (hu : OnEdge e u)
    (hw : OnEdge e w) (u0 : p.y ≤ u.y) (u1 : u.y ≤ q.y) (w0 : p.y ≤ w.y) (w1 : w.y ≤ q.y) :
    0 ≤ side p q u ↔ 0 ≤ side p q w :=
  ⟨same_side hpq h hu hw u0 u1 w0 w1, same_side hpq h hw hu w0 w1 u0 u1⟩

/-- 1 for the vertices between the leftward rays from `p` and from `q`, left of the segment between them. -/
def stripInd (p q v : Vec2 K) : Int := if p.y ≤ v.y ∧ v.y < q.y ∧ 0 ≤ side p q v then 1 else 0

theorem onEdge_start (a b : Vec2 K) : OnEdge (a, b) a := ⟨0, le_rfl, zero_le_one, by simp, by simp⟩
theorem onEdge_end (a b : Vec2 K) : OnEdge (a, b) b := ⟨1, zero_le_one, le_rfl, by simp, by simp⟩

/-- The point at height `y` of an edge that goes up through `y`. -/
theorem onEdge_crossX {a b : Vec2 K} {y : K} (h1 : a.y < y) (h2 : y ≤ b.y) : OnEdge (a, b) ⟨crossX a b y, y⟩ := by
  have hd : 0 < b.y - a.y := by linarith
  refine ⟨(y - a.y) / (b.y - a.y), div_nonneg (by linarith) hd.le, (div_le_one hd).mpr (by linarith), ?_, ?_⟩
  · simp only [crossX]; ring
  · simp only; field_simp; ring

theorem side_start {p q : Vec2 K} (hpq : p.y < q.y) (x : K) : 0 ≤ side p q ⟨x, p.y⟩ ↔ x ≤ p.x := by
  have hd : 0 < q.y - p.y := by linarith
  have : side p q ⟨x, p.y⟩ = (q.y - p.y) * (p.x - x) := by unfold side; ring
  rw [this, mul_nonneg_iff_of_pos_left hd, sub_nonneg]

theorem side_end {p q : Vec2 K} (hpq : p.y < q.y) (x : K) : 0 ≤ side p q ⟨x, q.y⟩ ↔ x ≤ q.x := by
  have hd : 0 < q.y - p.y := by linarith
  have : side p q ⟨x, q.y⟩ = (q.y - p.y) * (q.x - x) := by unfold side; ring
  rw [this, mul_nonneg_iff_of_pos_left hd, sub_nonneg]

/-- How the contribution of an edge that goes up changes when the point moves up from `p` to `q`. -/
theorem crossing_move_up {p q a b : Vec2 K} (hpq : p.y < q.y) (hab : a.y ≤ b.y) (h : Apart p q (a, b)) :
    crossing p (a, b) - crossing q (a, b) = stripInd p q b - stripInd p q a := by
  have ea := onEdge_start a b
  have eb := onEdge_end a b
  have cp : ∀ r : Vec2 K, crossing r (a, b) = if a.y < r.y ∧ r.y ≤ b.y ∧ crossX a b r.y ≤ r.x then 1 else 0 := by
    intro r
    unfold crossing
    simp only
    split
    · rfl
    · rw [if_neg]; rintro ⟨h1, h2, -⟩; linarith
  rw [cp, cp]
  unfold stripInd
  by_cases a1 : a.y < p.y
  · -- a below
    have ha : ¬ p.y ≤ a.y := not_le.mpr a1
    by_cases b1 : p.y ≤ b.y
    · have ep := onEdge_crossX a1 b1
      by_cases b2 : b.y < q.y
      · have hq : ¬ q.y ≤ b.y := not_le.mpr b2
        have := same_side_iff hpq h ep eb le_rfl hpq.le b1 b2.le
        rw [side_start hpq] at this
        simp [a1, ha, b1, b2, hq, this]
      · have hq := not_lt.mp b2
        have eq' := onEdge_crossX (show a.y < q.y by linarith) hq
        have := same_side_iff hpq h ep eq' le_rfl hpq.le hpq.le le_rfl
        rw [side_start hpq, side_end hpq] at this
        simp [a1, ha, b1, b2, hq, this, show a.y < q.y by linarith]
    · have hb : ¬ q.y ≤ b.y := by intro h'; exact b1 (by linarith)
      simp [ha, b1, hb]
  · have ha := not_lt.mp a1
    have b1 : p.y ≤ b.y := ha.trans hab
    by_cases a2 : a.y < q.y
    · by_cases b2 : b.y < q.y
      · have hq : ¬ q.y ≤ b.y := not_le.mpr b2
        have := same_side_iff hpq h ea eb ha a2.le b1 b2.le
        simp [a1, ha, a2, b1, b2, hq, this]
      · have hq := not_lt.mp b2
        have eq' := onEdge_crossX a2 hq
        have := same_side_iff hpq h ea eq' ha a2.le hpq.le le_rfl
        rw [side_end hpq] at this
        by_cases hs : 0 ≤ side p q a
        · simp [a1, ha, a2, b1, b2, hq, hs, this.mp hs]
        · simp [a1, ha, a2, b1, b2, hq, hs, not_le.mp fun h' => hs (this.mpr h')]
    · have b2 : ¬ b.y < q.y := by intro h'; linarith [not_lt.mp a2]
      simp [a1, a2, b2]

theorem crossing_move {p q a b : Vec2 K} (hpq : p.y < q.y) (h : Apart p q (a, b)) :
    crossing p (a, b) - crossing q (a, b) = stripInd p q b - stripInd p q a := by
  rcases le_total a.y b.y with hab | hab
  · exact crossing_move_up hpq hab h
  · have := crossing_move_up hpq hab h.swap
    rw [crossing_swap p a b, crossing_swap q a b] at this
    omega

theorem crossing_level {p q a b : Vec2 K} (hpq : p.y = q.y) (h : Apart p q (a, b)) : crossing p (a, b) = crossing q (a, b) := by
  have key : ∀ {p q a b : Vec2 K}, p.y = q.y → Apart p q (a, b) → a.y < p.y → p.y ≤ b.y → crossX a b p.y ≤ p.x →
      crossX a b q.y ≤ q.x := by
    intro p q a b hpq h h1 h2 h3
    by_contra hc
    have hc := not_le.mp hc
    rw [← hpq] at hc
    have hd : 0 < p.x - q.x := by linarith
    refine h ⟨crossX a b p.y, p.y⟩ ⟨(p.x - crossX a b p.y) / (p.x - q.x), div_nonneg (by linarith) hd.le,
      (div_le_one hd).mpr (by linarith), ?_, ?_⟩ (onEdge_crossX h1 h2)
    · simp only; field_simp; ring
    · simp only; rw [← hpq]; ring
  have up : ∀ {p q a b : Vec2 K}, p.y = q.y → Apart p q (a, b) → a.y ≤ b.y → crossing p (a, b) = crossing q (a, b) := by
    intro p q a b hpq h hab
    unfold crossing
    simp only
    have hn : ∀ r : Vec2 K, ¬ (b.y < r.y ∧ r.y ≤ a.y ∧ crossX a b r.y ≤ r.x) := by rintro r ⟨h1, h2, -⟩; linarith
    rw [if_neg (hn p), if_neg (hn q)]
    by_cases h1 : a.y < p.y ∧ p.y ≤ b.y
    · have : crossX a b p.y ≤ p.x ↔ crossX a b q.y ≤ q.x :=
        ⟨key hpq h h1.1 h1.2, fun h' => key hpq.symm h.symm (hpq ▸ h1.1) (hpq ▸ h1.2) h'⟩
      have e1 : a.y < q.y := hpq ▸ h1.1
      have e2 : q.y ≤ b.y := hpq ▸ h1.2
      simp [h1.1, h1.2, e1, e2, this]
    · rw [if_neg (fun h' => h1 ⟨h'.1, h'.2.1⟩), if_neg (fun h' => h1 ⟨hpq ▸ h'.1, hpq ▸ h'.2.1⟩)]
  rcases le_total a.y b.y with hab | hab
  · exact up hpq h hab
  · have := up hpq h.swap hab
    rw [crossing_swap p a b, crossing_swap q a b] at this
    omega

/-- The winding number is the same at the two ends of a segment that does not meet the boundary. -/
theorem winding_const {vs : List (Vec2 K)} {p q : Vec2 K} (h : ∀ e ∈ edges vs, Apart p q e) : winding vs p = winding vs q := by
  have strict : ∀ {p q : Vec2 K}, p.y < q.y → (∀ e ∈ edges vs, Apart p q e) → winding vs p = winding vs q := by
    intro p q hpq h
    have := sum_edges_telescope (fun v => stripInd p q v) vs
    have e : ((edges vs).map fun e => stripInd p q e.2 - stripInd p q e.1) =
        (edges vs).map fun e => crossing p e - crossing q e := by
      apply List.map_congr_left
      rintro ⟨a, b⟩ he
      exact (crossing_move hpq (h _ he)).symm
    rw [e] at this
    have e2 : ∀ l : List (Vec2 K × Vec2 K), (l.map fun e => crossing p e - crossing q e).sum =
        (l.map (crossing p)).sum - (l.map (crossing q)).sum := by
      intro l
      induction l with
      | nil => simp
      | cons e l ih => simp only [List.map_cons, List.sum_cons, ih]; ring
    rw [e2] at this
    unfold winding; omega
  rcases lt_trichotomy p.y q.y with hpq | hpq | hpq
  · exact strict hpq h
  · unfold winding
    congr 1
    apply List.map_congr_left
    rintro ⟨a, b⟩ he
    exact crossing_level hpq (h _ he)
  · exact (strict hpq (fun e he => (h e he).symm)).symm

/-- A property handed on by every edge of a closed path holds for all vertices or for none. -/
theorem edges_invariant {vs : List (Vec2 K)} {P : Vec2 K → Prop} (h : ∀ e ∈ edges vs, P e.1 → P e.2) {v : Vec2 K} (hv : v ∈ vs)
    (hP : P v) : ∀ w ∈ vs, P w := by
  have path : ∀ (l : List (Vec2 K)) (a : Vec2 K), P a → (∀ e ∈ edgesFrom a l, P e.1 → P e.2) → ∀ w ∈ l, P w := by
    intro l
    induction l with
    | nil => intro a _ _ w hw; simp at hw
    | cons b l ih =>
      intro a ha he w hw
      have hb : P b := he (a, b) (by simp) ha
      rcases List.mem_cons.mp hw with rfl | hw
      · exact hb
      · exact ih b hb (fun e he' => he e (by simp [he'])) w hw
  obtain ⟨A, B, rfl⟩ := List.append_of_mem hv
  have hrot : (A ++ v :: B).rotate (A.length + 1) = B ++ (A ++ [v]) := by
    have : A ++ v :: B = (A ++ [v]) ++ B := by simp
    rw [this]
    have hl : A.length + 1 = (A ++ [v]).length := by simp
    rw [hl, List.rotate_append_length_eq]
  have hp := edges_rotate_perm (A ++ v :: B) (A.length + 1)
  rw [hrot, ← List.append_assoc, edges_snoc] at hp
  intro w hw
  apply path (B ++ A ++ [v]) v hP (fun e he => h e (hp.mem_iff.mp he))
  simp at hw ⊢; tauto

theorem list_max {α : Type} (f : α → K) {l : List α} (h : l ≠ []) : ∃ v ∈ l, ∀ w ∈ l, f w ≤ f v := by
  induction l with
  | nil => exact absurd rfl h
  | cons a l ih =>
    by_cases hl : l = []
    · subst hl; exact ⟨a, by simp, by simp⟩
    · obtain ⟨v, hv, hm⟩ := ih hl
      rcases le_total (f a) (f v) with h1 | h1
      · refine ⟨v, by simp [hv], fun w hw => ?_⟩
        rcases List.mem_cons.mp hw with rfl | hw
        exacts [h1, hm w hw]
      · refine ⟨a, by simp, fun w hw => ?_⟩
        rcases List.mem_cons.mp hw with rfl | hw
        exacts [le_rfl, (hm w hw).trans h1]

/-- Every vertex is the end of an edge. -/
theorem edges_in {vs : List (Vec2 K)} {v : Vec2 K} (h : v ∈ vs) : ∃ u, (u, v) ∈ edges vs := by
  have hne : vs ≠ [] := by rintro rfl; simp at h
  have path : ∀ (l : List (Vec2 K)) (a : Vec2 K), v ∈ l → ∃ u, (u, v) ∈ edgesFrom a l := by
    intro l
    induction l with
    | nil => intro a h; simp at h
    | cons b l ih =>
      intro a h
      rcases List.mem_cons.mp h with rfl | h
      · exact ⟨a, by simp⟩
      · obtain ⟨u, hu⟩ := ih b h
        exact ⟨u, by simp [hu]⟩
  rw [edges_ne_nil hne]
  exact path vs _ h

/-- Every vertex is the start of an edge. -/
theorem edges_out {vs : List (Vec2 K)} {v : Vec2 K} (h : v ∈ vs) : ∃ w, (v, w) ∈ edges vs := by
  obtain ⟨u, hu⟩ := edges_in (vs := vs.reverse) (List.mem_reverse.mpr h)
  rw [(edges_reverse_perm vs).mem_iff] at hu
  obtain ⟨⟨a, b⟩, he, h'⟩ := List.mem_map.mp hu
  simp only [Prod.swap, Prod.mk.injEq] at h'
  obtain ⟨rfl, rfl⟩ := h'
  exact ⟨_, he⟩

/-- A point strictly on the left of every edge has vertices on both sides of its height. -/
theorem left_both {vs : List (Vec2 K)} (hne : vs ≠ []) {p : Vec2 K} (h : ∀ e ∈ edges vs, 0 < side e.1 e.2 p) :
    (∃ v ∈ vs, p.y < v.y) ∧ (∃ v ∈ vs, v.y < p.y) := by
  have main : (∀ v ∈ vs, p.y ≤ v.y) ∨ (∀ v ∈ vs, v.y ≤ p.y) → False := by
    intro hall
    have hn : ∀ v ∈ vs, v.y ≠ p.y := by
      intro v hv he
      obtain ⟨u, hu⟩ := edges_in hv
      obtain ⟨w, hw⟩ := edges_out hv
      have s1 := h _ hu
      have s2 := h _ hw
      have e1 : side u v p = (u.y - p.y) * (p.x - v.x) := by unfold side; rw [he]; ring
      have e2 : side v w p = (w.y - p.y) * (v.x - p.x) := by unfold side; rw [he]; ring
      simp only at s1 s2
      rw [e1] at s1
      rw [e2] at s2
      rcases hall with hall | hall
      · have h1 := hall u (edges_mem hu).1
        have h2 := hall w (edges_mem hw).2
        rcases le_total p.x v.x with hx | hx
        · have := mul_nonneg (sub_nonneg.mpr h1) (sub_nonneg.mpr hx)
          nlinarith
        · have := mul_nonneg (sub_nonneg.mpr h2) (sub_nonneg.mpr hx)
          nlinarith
      · have h1 := hall u (edges_mem hu).1
        have h2 := hall w (edges_mem hw).2
        rcases le_total p.x v.x with hx | hx
        · have := mul_nonneg (sub_nonneg.mpr h2) (sub_nonneg.mpr hx)
          nlinarith
        · have := mul_nonneg (sub_nonneg.mpr h1) (sub_nonneg.mpr hx)
          nlinarith
    have hsame : ∀ v ∈ vs, ∀ w ∈ vs, 0 < (v.y - p.y) * (w.y - p.y) := by
      intro v hv w hw
      rcases hall with hall | hall
      · exact mul_pos (sub_pos.mpr (lt_of_le_of_ne (hall v hv) (Ne.symm (hn v hv))))
          (sub_pos.mpr (lt_of_le_of_ne (hall w hw) (Ne.symm (hn w hw))))
      · exact mul_pos_of_neg_of_neg (sub_neg.mpr (lt_of_le_of_ne (hall v hv) (hn v hv)))
          (sub_neg.mpr (lt_of_le_of_ne (hall w hw) (hn w hw)))
    obtain ⟨v, hv, hmax⟩ := list_max (fun v => (v.x - p.x) / (v.y - p.y)) hne
    obtain ⟨u, hu⟩ := edges_in hv
    have hum := (edges_mem hu).1
    have s := h _ hu
    have hm := hmax u hum
    have h1 := hsame u hum v hv
    have nu : u.y - p.y ≠ 0 := sub_ne_zero.mpr (hn u hum)
    have nv : v.y - p.y ≠ 0 := sub_ne_zero.mpr (hn v hv)
    simp only at s hm
    have e : (v.x - p.x) / (v.y - p.y) - (u.x - p.x) / (u.y - p.y) = - side u v p / ((u.y - p.y) * (v.y - p.y)) := by
      unfold side; field_simp; ring
    have : - side u v p / ((u.y - p.y) * (v.y - p.y)) < 0 := div_neg_of_neg_of_pos (by linarith) h1
    linarith
  constructor
  · by_contra hno; push Not at hno; exact main (Or.inr hno)
  · by_contra hno; push Not at hno; exact main (Or.inl hno)

/-- The winding number is not zero at a point strictly on the left of every edge. -/
theorem winding_of_left {vs : List (Vec2 K)} (hne : vs ≠ []) {p : Vec2 K} (h : ∀ e ∈ edges vs, 0 < side e.1 e.2 p) :
    winding vs p ≠ 0 := by
  -- every crossing edge contributes 0 (upwards) or -1 (downwards)
  have hle : ∀ e ∈ edges vs, crossing p e ≤ 0 := by
    rintro ⟨a, b⟩ he
    have hs := h _ he
    unfold crossing
    simp only at hs ⊢
    split
    · rename_i hc
      exfalso
      have := (crossX_le_up (a := a) (b := b) (p := p) (by linarith [hc.1, hc.2.1])).mpr hc.2.2
      unfold side at hs; linarith
    · split <;> norm_num
  have hdown : ∀ e ∈ edges vs, e.2.y < p.y → p.y ≤ e.1.y → crossing p e = -1 := by
    rintro ⟨a, b⟩ he h1 h2
    have hs := h _ he
    simp only at h1 h2 hs
    unfold crossing
    simp only
    rw [if_neg (by rintro ⟨h', -, -⟩; linarith), if_pos]
    refine ⟨h1, h2, (crossX_le_down (a := a) (b := b) (p := p) (by linarith)).mp ?_⟩
    unfold side at hs; linarith
  -- there is an edge that goes down through the height of p
  have hex : ∃ e ∈ edges vs, e.2.y < p.y ∧ p.y ≤ e.1.y := by
    by_contra hno
    push Not at hno
    obtain ⟨⟨v, hv, hvy⟩, ⟨w, hw, hwy⟩⟩ := left_both hne h
    have := edges_invariant (P := fun v => p.y ≤ v.y) (fun e he h1 => by
          by_contra h2; exact absurd h1 (not_le.mpr (hno e he (not_le.mp h2)))) hv hvy.le w hw
    linarith
  obtain ⟨e, he, h1, h2⟩ := hex
  have hneg := hdown e he h1 h2
  have hsum : ∀ l : List (Vec2 K × Vec2 K), (∀ e ∈ l, crossing p e ≤ 0) → e ∈ l → (l.map (crossing p)).sum < 0 := by
    intro l
    induction l with
    | nil => intro _ h; simp at h
    | cons a l ih =>
      intro hl he
      have hnp : ∀ m : List (Vec2 K × Vec2 K), (∀ e ∈ m, crossing p e ≤ 0) → (m.map (crossing p)).sum ≤ 0 := by
        intro m
        induction m with
        | nil => simp
        | cons b m ihm =>
          intro hm
          have := ihm fun e he => hm e (by simp [he])
          have := hm b (by simp)
          simp only [List.map_cons, List.sum_cons]; omega
      simp only [List.map_cons, List.sum_cons]
      rcases List.mem_cons.mp he with rfl | he
      · have := hnp l fun e he => hl e (by simp [he])
        omega
      · have := ih (fun e he => hl e (by simp [he])) he
        have := hl a (by simp)
        omega
  have := hsum (edges vs) hle he
  unfold winding; omega

end Planar
