import Verif.Props.Winding
import Verif.Model.Hull
import Verif.Lemmas.Split
import Verif.Lemmas.Sort
/- Geometry of the quick hull: supporting lines, triangles, one partition step. -/
set_option linter.unusedSectionVars false
namespace Planar
open Spec
variable {K : Type} [Field K] [LinearOrder K] [IsStrictOrderedRing K]

/-! ### convex hulls -/

theorem inHull_mono {vs ws : List (Vec2 K)} (h : ∀ v ∈ vs, v ∈ ws) {p : Vec2 K} (hp : InHull vs p) : InHull ws p := by
  induction hp with
  | vertex v hv => exact .vertex v (h v hv)
  | between p q t _ _ h0 h1 ihp ihq => exact .between p q t ihp ihq h0 h1

/-- The hull of points of the hull is the hull. -/
theorem inHull_trans {vs ws : List (Vec2 K)} (h : ∀ v ∈ vs, InHull ws v) {p : Vec2 K} (hp : InHull vs p) : InHull ws p := by
  induction hp with
  | vertex v hv => exact h v hv
  | between p q t _ _ h0 h1 ihp ihq => exact .between p q t ihp ihq h0 h1

theorem inHull_between {vs : List (Vec2 K)} {p q r : Vec2 K} {t : K} (hp : InHull vs p) (hq : InHull vs q) (h0 : 0 ≤ t)
    (h1 : t ≤ 1) (hx : r.x = p.x + t * (q.x - p.x)) (hy : r.y = p.y + t * (q.y - p.y)) : InHull vs r := by
  have : r = ⟨p.x + t * (q.x - p.x), p.y + t * (q.y - p.y)⟩ := Vec2.ext hx hy
  rw [this]; exact .between p q t hp hq h0 h1

theorem inHull_triangle {vs : List (Vec2 K)} {a b c r : Vec2 K} {u v : K} (ha : InHull vs a) (hb : InHull vs b)
    (hc : InHull vs c) (hu : 0 ≤ u) (hv : 0 ≤ v) (huv : u + v ≤ 1)
    (hx : r.x = a.x + u * (b.x - a.x) + v * (c.x - a.x)) (hy : r.y = a.y + u * (b.y - a.y) + v * (c.y - a.y)) :
    InHull vs r := by
  rcases (add_nonneg hu hv).eq_or_lt with h | h
  · have hu0 : u = 0 := by linarith
    have hv0 : v = 0 := by linarith
    have : r = a := by
      ext
      · rw [hx, hu0, hv0]; ring
      · rw [hy, hu0, hv0]; ring
    rw [this]; exact ha
  · have hm : InHull vs ⟨b.x + v / (u + v) * (c.x - b.x), b.y + v / (u + v) * (c.y - b.y)⟩ :=
      .between b c _ hb hc (div_nonneg hv h.le) ((div_le_one h).mpr (by linarith))
    refine inHull_between ha hm h.le huv ?_ ?_
    · simp only; rw [hx]; field_simp; ring
    · simp only; rw [hy]; field_simp; ring

theorem inHull_side {vs : List (Vec2 K)} {p a b : Vec2 K} (hp : InHull vs p) (h : ∀ v ∈ vs, side a b v ≤ 0) :
    side a b p ≤ 0 := by
  induction hp with
  | vertex v hv => exact h v hv
  | between p q t _ _ h0 h1 ihp ihq =>
    have : side a b ⟨p.x + t * (q.x - p.x), p.y + t * (q.y - p.y)⟩ = (1 - t) * side a b p + t * side a b q := by
      simp only [side]; ring
    rw [this]
    have := mul_nonneg (sub_nonneg.mpr h1) (neg_nonneg.mpr ihp)
    have := mul_nonneg h0 (neg_nonneg.mpr ihq)
    linarith

/-- A point in the triangle `P p0 p1`. -/
theorem inHull_of_sides {vs : List (Vec2 K)} {p0 p1 P p : Vec2 K} (h0 : InHull vs p0) (h1 : InHull vs p1)
    (hP : InHull vs P) (hD : 0 < side p0 p1 P) (ha : side p0 P p ≤ 0) (hb : side P p1 p ≤ 0) (hc : 0 ≤ side p0 p1 p) :
    InHull vs p := by
  refine inHull_triangle (u := -side P p1 p / side p0 p1 P) (v := -side p0 P p / side p0 p1 P) hP h0 h1
    (div_nonneg (by linarith) hD.le) (div_nonneg (by linarith) hD.le) ?_ ?_ ?_
  · rw [← add_div, div_le_one hD]
    have : -side P p1 p + -side p0 P p = side p0 p1 P - side p0 p1 p := by simp only [side]; ring
    linarith
  · have := hD.ne'
    field_simp
    simp only [side]; ring
  · have := hD.ne'
    field_simp
    simp only [side]; ring

/-! ### supporting lines -/

/-- `S` is on one side of a line through `p`, and `q` strictly. -/
def Support (S : List (Vec2 K)) (p q : Vec2 K) : Prop :=
  ∃ a b : K, (∀ s ∈ S, 0 ≤ a * (s.x - p.x) + b * (s.y - p.y)) ∧ 0 < a * (q.x - p.x) + b * (q.y - p.y)

/-- A point on the right of `p0 p1` is on the right of `p0 P`, unless it is behind `p0`. -/
theorem behind0 {S : List (Vec2 K)} {p0 p1 P s : Vec2 K} (hf : Support S p0 p1) (hP : P ∈ S) (hs : s ∈ S)
    (hD : 0 < side p0 p1 P) (h : side p0 p1 s ≤ 0) : side p0 P s ≤ 0 := by
  obtain ⟨a, b, h1, h2⟩ := hf
  by_contra hc
  push Not at hc
  have e : side p0 p1 P * (a * (s.x - p0.x) + b * (s.y - p0.y)) =
      side p0 p1 s * (a * (P.x - p0.x) + b * (P.y - p0.y)) - side p0 P s * (a * (p1.x - p0.x) + b * (p1.y - p0.y)) := by
    simp only [side]; ring
  have n1 := mul_nonneg hD.le (h1 s hs)
  have n2 := mul_nonneg (neg_nonneg.mpr h) (h1 P hP)
  have n3 := mul_pos hc h2
  linarith

/-- A point on the right of `p0 p1` is on the right of `P p1`, unless it is beyond `p1`. -/
theorem behind1 {S : List (Vec2 K)} {p0 p1 P s : Vec2 K} (hf : Support S p1 p0) (hP : P ∈ S) (hs : s ∈ S)
    (hD : 0 < side p0 p1 P) (h : side p0 p1 s ≤ 0) : side P p1 s ≤ 0 := by
  obtain ⟨a, b, h1, h2⟩ := hf
  by_contra hc
  push Not at hc
  have e : side p0 p1 P * (a * (s.x - p1.x) + b * (s.y - p1.y)) =
      side p0 p1 s * (a * (P.x - p1.x) + b * (P.y - p1.y)) - side P p1 s * (a * (p0.x - p1.x) + b * (p0.y - p1.y)) := by
    simp only [side]; ring
  have n1 := mul_nonneg hD.le (h1 s hs)
  have n2 := mul_nonneg (neg_nonneg.mpr h) (h1 P hP)
  have n3 := mul_pos hc h2
  linarith

/-- If there is a point on the left of `p0 P`, the line through `p0` also supports towards `P`. -/
theorem support_left {S : List (Vec2 K)} {p0 p1 P s : Vec2 K} (hf : Support S p0 p1) (hs : s ∈ S)
    (hD : 0 < side p0 p1 P) (h1 : 0 < side p0 p1 s) (h2 : 0 < side p0 P s) : Support S p0 P := by
  obtain ⟨a, b, g1, g2⟩ := hf
  refine ⟨a, b, g1, ?_⟩
  have e : side p0 p1 P * (a * (s.x - p0.x) + b * (s.y - p0.y)) =
      side p0 p1 s * (a * (P.x - p0.x) + b * (P.y - p0.y)) - side p0 P s * (a * (p1.x - p0.x) + b * (p1.y - p0.y)) := by
    simp only [side]; ring
  have n1 := mul_nonneg hD.le (g1 s hs)
  have n3 := mul_pos h2 g2
  have : 0 < side p0 p1 s * (a * (P.x - p0.x) + b * (P.y - p0.y)) := by linarith
  exact (pos_iff_pos_of_mul_pos this).mp h1

theorem support_right {S : List (Vec2 K)} {p0 p1 P s : Vec2 K} (hf : Support S p1 p0) (hs : s ∈ S)
    (hD : 0 < side p0 p1 P) (h1 : 0 < side p0 p1 s) (h2 : 0 < side P p1 s) : Support S p1 P := by
  obtain ⟨a, b, g1, g2⟩ := hf
  refine ⟨a, b, g1, ?_⟩
  have e : side p0 p1 P * (a * (s.x - p1.x) + b * (s.y - p1.y)) =
      side p0 p1 s * (a * (P.x - p1.x) + b * (P.y - p1.y)) - side P p1 s * (a * (p0.x - p1.x) + b * (p0.y - p1.y)) := by
    simp only [side]; ring
  have n1 := mul_nonneg hD.le (g1 s hs)
  have n3 := mul_pos h2 g2
  have : 0 < side p0 p1 s * (a * (P.x - p1.x) + b * (P.y - p1.y)) := by linarith
  exact (pos_iff_pos_of_mul_pos this).mp h1

/-- The line through the furthest point parallel to `p0 p1`. -/
theorem support_far {S : List (Vec2 K)} {p0 p1 P : Vec2 K} (hmax : ∀ s ∈ S, side p0 p1 s ≤ side p0 p1 P)
    (hD : 0 < side p0 p1 P) : Support S P p0 ∧ Support S P p1 := by
  have key : ∀ s : Vec2 K, (p1.y - p0.y) * (s.x - P.x) + -(p1.x - p0.x) * (s.y - P.y) = side p0 p1 P - side p0 p1 s := by
    intro s; simp only [side]; ring
  refine ⟨⟨p1.y - p0.y, -(p1.x - p0.x), ?_, ?_⟩, ⟨p1.y - p0.y, -(p1.x - p0.x), ?_, ?_⟩⟩
  · intro s hs; rw [key]; have := hmax s hs; linarith
  · rw [key]; have : side p0 p1 p0 = 0 := by simp only [side]; ring
    linarith
  · intro s hs; rw [key]; have := hmax s hs; linarith
  · rw [key]; have : side p0 p1 p1 = 0 := by simp only [side]; ring
    linarith

/-! ### the partition step -/
namespace Hull

theorem splitPoints_zero (pts : List (Vec2 K)) {P p0 p1 : Vec2 K} (h : side p0 p1 P = 0) :
    splitPoints pts P p0 p1 = ([], []) := by
  have : (p0 - P).length2 * (p1 - P).length2 - (p0 - P).dot (p1 - P) * (p0 - P).dot (p1 - P) = 0 := by
    have e : (p0 - P).length2 * (p1 - P).length2 - (p0 - P).dot (p1 - P) * (p0 - P).dot (p1 - P) =
        side p0 p1 P * side p0 p1 P := by
      simp only [Vec2.length2, Vec2.dot, side, Vec2.sub_x, Vec2.sub_y]; ring
    rw [e, h]; ring
  simp only [splitPoints, this, beq_self_eq_true, if_true]

theorem splitPoints_pos (pts : List (Vec2 K)) {P p0 p1 : Vec2 K} (h : 0 < side p0 p1 P) :
    splitPoints pts P p0 p1 = (pts.filter fun p => decide (0 < side p0 P p),
      pts.filter fun p => !(decide (0 < side p0 P p)) && decide (0 < side P p1 p)) := by
  have e : (p0 - P).length2 * (p1 - P).length2 - (p0 - P).dot (p1 - P) * (p0 - P).dot (p1 - P) =
      side p0 p1 P * side p0 p1 P := by
    simp only [Vec2.length2, Vec2.dot, side, Vec2.sub_x, Vec2.sub_y]; ring
  have hne : side p0 p1 P * side p0 p1 P ≠ 0 := (mul_pos h h).ne'
  have hv : ∀ p : Vec2 K, ((p0 - P).length2 * (p1 - P).dot (p - P) - (p0 - P).dot (p1 - P) * (p0 - P).dot (p - P)) *
      (1 / (side p0 p1 P * side p0 p1 P)) < 0 ↔ 0 < side p0 P p := by
    intro p
    have e : (p0 - P).length2 * (p1 - P).dot (p - P) - (p0 - P).dot (p1 - P) * (p0 - P).dot (p - P) =
        side p0 p1 P * -side p0 P p := by
      simp only [Vec2.length2, Vec2.dot, side, Vec2.sub_x, Vec2.sub_y]; ring
    have : side p0 p1 P * -side p0 P p * (1 / (side p0 p1 P * side p0 p1 P)) = -(side p0 P p / side p0 p1 P) := by
      have := h.ne'; field_simp
    rw [e, this, neg_lt_zero, div_pos_iff_of_pos_right h]
  have hu : ∀ p : Vec2 K, ((p1 - P).length2 * (p0 - P).dot (p - P) - (p0 - P).dot (p1 - P) * (p1 - P).dot (p - P)) *
      (1 / (side p0 p1 P * side p0 p1 P)) < 0 ↔ 0 < side P p1 p := by
    intro p
    have e : (p1 - P).length2 * (p0 - P).dot (p - P) - (p0 - P).dot (p1 - P) * (p1 - P).dot (p - P) =
        side p0 p1 P * -side P p1 p := by
      simp only [Vec2.length2, Vec2.dot, side, Vec2.sub_x, Vec2.sub_y]; ring
    have : side p0 p1 P * -side P p1 p * (1 / (side p0 p1 P * side p0 p1 P)) = -(side P p1 p / side p0 p1 P) := by
      have := h.ne'; field_simp
    rw [e, this, neg_lt_zero, div_pos_iff_of_pos_right h]
  simp only [splitPoints, e, beq_iff_eq, hne, if_false, hv, hu]

/-- The furthest point. -/
theorem furthest_spec {pts : List (Vec2 K)} {p0 p1 : Vec2 K} (hne : pts ≠ []) (hpos : ∀ p ∈ pts, 0 ≤ side p0 p1 p) :
    ∃ P ∈ pts, (pts.foldl (furthestStep p0 (p1.x - p0.x) (p1.y - p0.y)) (-1, none)).2 = some P ∧
      ∀ p ∈ pts, side p0 p1 p ≤ side p0 p1 P := by
  have step : ∀ (acc : K × Option (Vec2 K)) (p : Vec2 K), furthestStep p0 (p1.x - p0.x) (p1.y - p0.y) acc p =
      if side p0 p1 p > acc.1 then (side p0 p1 p, some p) else acc := by
    intro acc p
    have : (p1.x - p0.x) * (p.y - p0.y) - (p.x - p0.x) * (p1.y - p0.y) = side p0 p1 p := by simp only [side]; ring
    simp only [furthestStep, this]
  have gen : ∀ (l : List (Vec2 K)) (acc : K × Option (Vec2 K)) (Q : Vec2 K), acc = (side p0 p1 Q, some Q) →
      ∃ P, (P = Q ∨ P ∈ l) ∧ (l.foldl (furthestStep p0 (p1.x - p0.x) (p1.y - p0.y)) acc).2 = some P ∧
        side p0 p1 Q ≤ side p0 p1 P ∧ ∀ p ∈ l, side p0 p1 p ≤ side p0 p1 P := by
    intro l
    induction l with
    | nil => intro acc Q h; exact ⟨Q, Or.inl rfl, by rw [h]; rfl, le_rfl, by simp⟩
    | cons x l ih =>
      intro acc Q h
      rw [List.foldl_cons, step, h]
      simp only
      split
      · rename_i hgt
        obtain ⟨P, hP, h1, h2, h3⟩ := ih _ x rfl
        refine ⟨P, ?_, h1, hgt.le.trans h2, ?_⟩
        · rcases hP with rfl | hP
          · exact Or.inr List.mem_cons_self
          · exact Or.inr (List.mem_cons_of_mem _ hP)
        · intro p hp
          rcases List.mem_cons.mp hp with rfl | hp
          · exact h2
          · exact h3 p hp
      · rename_i hle
        obtain ⟨P, hP, h1, h2, h3⟩ := ih _ Q rfl
        refine ⟨P, ?_, h1, h2, ?_⟩
        · rcases hP with rfl | hP
          · exact Or.inl rfl
          · exact Or.inr (List.mem_cons_of_mem _ hP)
        · intro p hp
          rcases List.mem_cons.mp hp with rfl | hp
          · exact (not_lt.mp hle).trans h2
          · exact h3 p hp
  rcases pts with _ | ⟨x, l⟩
  · exact absurd rfl hne
  · have hx := hpos x List.mem_cons_self
    rw [List.foldl_cons, step, if_pos (by simp only; linarith)]
    obtain ⟨P, hP, h1, h2, h3⟩ := gen l _ x rfl
    refine ⟨P, ?_, h1, ?_⟩
    · rcases hP with rfl | hP
      · exact List.mem_cons_self
      · exact List.mem_cons_of_mem _ hP
    · intro p hp
      rcases List.mem_cons.mp hp with rfl | hp
      · exact h2
      · exact h3 p hp

end Hull
end Planar
