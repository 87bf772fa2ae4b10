import Verif.Lemmas.Poly
import Verif.Props.Box
import Mathlib.Tactic.Linarith
import Mathlib.Algebra.Order.BigOperators.Group.List
/- Properties C48, C49, C54: the general winding rule of `contains_point`. -/
set_option linter.unusedSectionVars false
namespace Planar
open Spec
variable {K : Type} [Field K] [LinearOrder K] [IsStrictOrderedRing K]

/-- The test of the code, without division, against the crossing point. -/
theorem crossX_le_up {a b p : Vec2 K} (h : a.y < b.y) :
    (b.x - a.x) * (p.y - a.y) - (p.x - a.x) * (b.y - a.y) ≤ 0 ↔ crossX a b p.y ≤ p.x := by
  have hd : 0 < b.y - a.y := by linarith
  unfold crossX
  rw [← mul_div_assoc, ← le_sub_iff_add_le', div_le_iff₀ hd]
  constructor <;> intro h <;> linarith

theorem crossX_le_down {a b p : Vec2 K} (h : b.y < a.y) :
    (b.x - a.x) * (p.y - a.y) - (p.x - a.x) * (b.y - a.y) ≥ 0 ↔ crossX a b p.y ≤ p.x := by
  have hd : b.y - a.y < 0 := by linarith
  unfold crossX
  rw [← mul_div_assoc, ← le_sub_iff_add_le', div_le_iff_of_neg hd]
  constructor <;> intro h <;> linarith

/-- One step of the winding loop adds the crossing of its edge. -/
theorem windStep_eq (p a b : Vec2 K) : Polygon.windStep p a b = crossing p (a, b) := by
  unfold Polygon.windStep crossing
  simp only
  by_cases ha : p.y ≤ a.y <;> by_cases hb : p.y ≤ b.y
  · have h1 : ¬ a.y < p.y := not_lt.mpr ha
    have h2 : ¬ b.y < p.y := not_lt.mpr hb
    simp [ha, hb, h1, h2]
  · have h1 : ¬ a.y < p.y := not_lt.mpr ha
    have h2 : b.y < p.y := not_le.mp hb
    have h3 : b.y < a.y := lt_of_lt_of_le h2 ha
    simp only [ge_iff_le, ha, hb, decide_true, decide_false, h1, h2, false_and, if_false, true_and, Bool.false_eq_true]
    rw [if_pos (by decide)]
    simp only [← crossX_le_down (p := p) h3, ge_iff_le]
  · have h1 : a.y < p.y := not_le.mp ha
    have h2 : ¬ b.y < p.y := not_lt.mpr hb
    have h3 : a.y < b.y := lt_of_lt_of_le h1 hb
    simp only [ge_iff_le, ha, hb, decide_true, decide_false, h1, h2, false_and, if_false, true_and]
    rw [if_pos (by decide)]
    simp only [← crossX_le_up (p := p) h3, if_true]
  · have h1 : a.y < p.y := not_le.mp ha
    have h2 : b.y < p.y := not_le.mp hb
    simp [ha, hb]

theorem windLoop_eq (p : Vec2 K) (l : List (Vec2 K)) (a : Vec2 K) (w : Int) :
    Polygon.windLoop p l a w = w + ((edgesFrom a l).map (crossing p)).sum := by
  induction l generalizing a w with
  | nil => simp [Polygon.windLoop]
  | cons b l ih =>
    rw [Polygon.windLoop, ih, windStep_eq]; simp only [edgesFrom_cons, List.map_cons, List.sum_cons]; ring

/-- The winding test of the code answers whether the winding number is non-zero. -/
theorem pnpWinding_eq {vs : List (Vec2 K)} (h : vs ≠ []) (p : Vec2 K) :
    Polygon.pnpWinding vs p = (winding vs p != 0) := by
  unfold Polygon.pnpWinding winding
  rw [windLoop_eq, nth_neg_one vs h, ← edges_ne_nil h, zero_add]

/-- 1 for a vertex that counts as above `p`. -/
def aboveInd (p v : Vec2 K) : Int := if p.y ≤ v.y then 1 else 0

/-- Whatever the side, the crossing is 0 or the change of `aboveInd`. -/
theorem crossing_cases (p : Vec2 K) (e : Vec2 K × Vec2 K) :
    (crossX e.1 e.2 p.y ≤ p.x ∧ crossing p e = aboveInd p e.2 - aboveInd p e.1) ∨
    (p.x < crossX e.1 e.2 p.y ∧ crossing p e = 0) := by
  unfold crossing aboveInd
  by_cases hx : crossX e.1 e.2 p.y ≤ p.x
  · left
    refine ⟨hx, ?_⟩
    by_cases ha : p.y ≤ e.1.y <;> by_cases hb : p.y ≤ e.2.y <;>
      simp [ha, hb, hx, not_lt.mpr, not_le.mp]
  · right
    exact ⟨not_le.mp hx, by simp [hx]⟩

theorem crossing_noncross {p : Vec2 K} {e : Vec2 K × Vec2 K} (h : aboveInd p e.1 = aboveInd p e.2) :
    crossing p e = 0 := by
  rcases crossing_cases p e with ⟨-, h'⟩ | ⟨-, h'⟩
  · rw [h', h]; simp
  · exact h'

theorem crossing_crosses {p : Vec2 K} {e : Vec2 K × Vec2 K} (h : aboveInd p e.1 ≠ aboveInd p e.2) :
    (e.1.y < p.y ∧ p.y ≤ e.2.y) ∨ (e.2.y < p.y ∧ p.y ≤ e.1.y) := by
  unfold aboveInd at h
  by_cases ha : p.y ≤ e.1.y <;> by_cases hb : p.y ≤ e.2.y <;> simp_all

/-- If every crossing edge crosses at or left of `p`, or every one crosses right of `p`, the winding number is 0. -/
theorem winding_eq_zero {vs : List (Vec2 K)} {p : Vec2 K}
    (h : (∀ e ∈ edges vs, aboveInd p e.1 ≠ aboveInd p e.2 → crossX e.1 e.2 p.y ≤ p.x) ∨
      (∀ e ∈ edges vs, aboveInd p e.1 ≠ aboveInd p e.2 → p.x < crossX e.1 e.2 p.y)) : winding vs p = 0 := by
  unfold winding
  rcases h with h | h
  · rw [← sum_edges_telescope (fun v => aboveInd p v) vs]
    congr 1
    apply List.map_congr_left
    intro e he
    by_cases hc : aboveInd p e.1 = aboveInd p e.2
    · rw [crossing_noncross hc, hc]; simp
    · rcases crossing_cases p e with ⟨-, h'⟩ | ⟨h1, -⟩
      · exact h'
      · exact absurd (h e he hc) (not_le.mpr h1)
  · apply List.sum_eq_zero
    intro x hx
    obtain ⟨e, he, rfl⟩ := List.mem_map.mp hx
    by_cases hc : aboveInd p e.1 = aboveInd p e.2
    · exact crossing_noncross hc
    · rcases crossing_cases p e with ⟨h1, -⟩ | ⟨-, h'⟩
      · exact absurd h1 (not_le.mpr (h e he hc))
      · exact h'

/-- A non-zero winding number needs a crossing at or left of `p` and one right of `p`. -/
theorem winding_ne_zero {vs : List (Vec2 K)} {p : Vec2 K} (h : winding vs p ≠ 0) :
    (∃ e ∈ edges vs, aboveInd p e.1 ≠ aboveInd p e.2 ∧ crossX e.1 e.2 p.y ≤ p.x) ∧
    (∃ e ∈ edges vs, aboveInd p e.1 ≠ aboveInd p e.2 ∧ p.x < crossX e.1 e.2 p.y) := by
  constructor
  · by_contra hc
    apply h
    apply winding_eq_zero; right
    intro e he hce
    by_contra hx
    exact hc ⟨e, he, hce, not_lt.mp hx⟩
  · by_contra hc
    apply h
    apply winding_eq_zero; left
    intro e he hce
    by_contra hx
    exact hc ⟨e, he, hce, not_le.mp hx⟩

/-- The crossing point of an edge that crosses the height of `p` is on the edge. -/
theorem crossX_between {p : Vec2 K} {e : Vec2 K × Vec2 K} (h : aboveInd p e.1 ≠ aboveInd p e.2) :
    ∃ t : K, 0 ≤ t ∧ t ≤ 1 ∧ crossX e.1 e.2 p.y = e.1.x + t * (e.2.x - e.1.x) ∧
      p.y = e.1.y + t * (e.2.y - e.1.y) := by
  refine ⟨(p.y - e.1.y) / (e.2.y - e.1.y), ?_, ?_, ?_, ?_⟩
  all_goals rcases crossing_crosses h with ⟨h1, h2⟩ | ⟨h1, h2⟩
  · exact div_nonneg (by linarith) (by linarith)
  · exact div_nonneg_of_nonpos (by linarith) (by linarith)
  · rw [div_le_one (by linarith)]; linarith
  · rw [div_le_one_of_neg (by linarith)]; linarith
  · unfold crossX; ring
  · unfold crossX; ring
  · have : e.2.y - e.1.y ≠ 0 := by intro h; linarith
    field_simp; ring
  · have : e.2.y - e.1.y ≠ 0 := by intro h; linarith
    field_simp; ring

/-! ### C48 -/

theorem fromPoints_verts (vs : List (Vec2 K)) : (Polygon.fromPoints vs).verts = vs := rfl

/-- Outside the (half-open) bounding box the winding number is 0. -/
theorem winding_outside_box {vs : List (Vec2 K)} {b : Box K} (hb : b.Tight vs) {p : Vec2 K}
    (h : b.containsPoint p = false) : winding vs p = 0 := by
  have hx : ∀ e ∈ edges vs, aboveInd p e.1 ≠ aboveInd p e.2 →
      b.min.x ≤ crossX e.1 e.2 p.y ∧ crossX e.1 e.2 p.y ≤ b.max.x ∧ b.min.y < p.y ∧ p.y ≤ b.max.y := by
    intro e he hc
    obtain ⟨m1, m2⟩ := edges_mem he
    obtain ⟨t, ht0, ht1, hX, -⟩ := crossX_between hc
    have b1 := hb.1 e.1 m1
    have b2 := hb.1 e.2 m2
    rw [hX]
    refine ⟨by nlinarith [b1.1, b2.1], by nlinarith [b1.2.1, b2.2.1], ?_, ?_⟩
    · rcases crossing_crosses hc with ⟨h1, h2⟩ | ⟨h1, h2⟩
      · linarith [b1.2.2.1]
      · linarith [b2.2.2.1]
    · rcases crossing_crosses hc with ⟨h1, h2⟩ | ⟨h1, h2⟩
      · linarith [b2.2.2.2]
      · linarith [b1.2.2.2]
  have hn : ¬ (b.containsPoint p = true) := by rw [h]; simp
  rw [containsPoint_iff] at hn
  by_cases h1 : p.x < b.min.x
  · apply winding_eq_zero; right
    intro e he hc
    exact lt_of_lt_of_le h1 (hx e he hc).1
  · by_cases h2 : b.max.x ≤ p.x
    · apply winding_eq_zero; left
      intro e he hc
      exact (hx e he hc).2.1.trans h2
    · apply winding_eq_zero; left
      intro e he hc
      exfalso
      exact hn ⟨not_lt.mp h1, not_le.mp h2, (hx e he hc).2.2⟩

/-- **C48** for a polygon with at least four vertices and nothing cached, `contains_point` answers whether the signed
number of boundary crossings of the leftward ray is non-zero; any kind of point is accepted and nothing is raised. -/
theorem C48_winding (eps : K) (vs : List (Vec2 K)) (h : 4 ≤ vs.length) (pt : PyPoint K) :
    ((Polygon.fromPoints vs).containsPoint eps pt).1 = .ok (winding vs pt.toVec != 0) := by
  have hne : vs ≠ [] := by rintro rfl; simp at h
  obtain ⟨b, hb, ht⟩ := fromPoints_tight hne
  simp only [Polygon.containsPoint, Polygon.fromPoints, Polygon.cleared, Polygon.boundingBox,
    show ¬ vs.length = 3 by omega, if_false, hb]
  by_cases h4 : vs.length = 4
  · simp only [h4, if_true, pnpWinding_eq hne]
  · simp only [h4, if_false]
    by_cases hc : b.containsPoint pt.toVec = true
    · simp only [hc, if_true, pnpWinding_eq hne]
    · have hc' : b.containsPoint pt.toVec = false := by simpa using hc
      simp only [hc', Bool.false_eq_true, if_false, winding_outside_box ht hc', bne_self_eq_false]

/-- **C48** the same through the constructor `Polygon(vs)`. -/
theorem C48_winding_new (eps : K) (vs : List (Vec2 K)) (h : 4 ≤ vs.length) (pt : PyPoint K) :
    ∃ s, Polygon.new vs = .ok s ∧ s.verts = vs ∧
      (s.containsPoint eps pt).1 = .ok (winding vs pt.toVec != 0) := by
  have hm : vs.map Vec2.copy = vs := by
    conv_rhs => rw [← List.map_id vs]
    apply List.map_congr_left; intro v _; exact Vec2.copy_eq v
  refine ⟨Polygon.fromPoints vs, ?_, rfl, C48_winding eps vs h pt⟩
  simp only [Polygon.new, hm, show ¬ vs.length < 3 by omega, if_false]
  rfl

/-- **C48** the winding number does not depend on the starting vertex, changes sign with the direction, and moves with
the polygon. -/
theorem C48_invariance (vs : List (Vec2 K)) (p d : Vec2 K) (k : Nat) :
    winding (vs.rotate k) p = winding vs p ∧ winding vs.reverse p = -winding vs p ∧
    winding (vs.map fun v => v + d) (p + d) = winding vs p := by
  refine ⟨?_, ?_, ?_⟩
  · exact ((edges_rotate_perm vs k).map _).sum_eq
  · unfold winding
    rw [((edges_reverse_perm vs).map _).sum_eq, List.map_map]
    have : ∀ l : List (Vec2 K × Vec2 K), (l.map (crossing p ∘ Prod.swap)).sum = -(l.map (crossing p)).sum := by
      intro l
      induction l with
      | nil => rfl
      | cons e l ih =>
        simp only [List.map_cons, List.sum_cons, ih]
        have : (crossing p ∘ Prod.swap) e = - crossing p e := by
          rcases e with ⟨a, b⟩
          have hX : aboveInd p a ≠ aboveInd p b → crossX a b p.y = crossX b a p.y := by
            intro h
            have hne : a.y ≠ b.y := by
              rcases crossing_crosses (e := (a, b)) h with ⟨h1, h2⟩ | ⟨h1, h2⟩ <;> intro h3 <;> simp only at h1 h2 <;> linarith
            have h1 : b.y - a.y ≠ 0 := sub_ne_zero.mpr hne.symm
            have h2 : a.y - b.y ≠ 0 := sub_ne_zero.mpr hne
            unfold crossX
            rw [show a.y - b.y = -(b.y - a.y) by ring, div_neg]
            field_simp
            ring
          change crossing p (b, a) = - crossing p (a, b)
          by_cases h : aboveInd p a = aboveInd p b
          · rw [crossing_noncross (e := (b, a)) h.symm, crossing_noncross (e := (a, b)) h]; rfl
          · have hx := hX h
            rcases crossing_cases p (a, b) with ⟨h1, h2⟩ | ⟨h1, h2⟩ <;>
              rcases crossing_cases p (b, a) with ⟨h3, h4⟩ | ⟨h3, h4⟩ <;> simp only at h1 h2 h3 h4
            · rw [h2, h4]; ring
            · rw [hx] at h1; exact absurd h1 (not_le.mpr h3)
            · rw [hx] at h1; exact absurd h3 (not_le.mpr h1)
            · rw [h2, h4]; rfl
        rw [this]; ring
    exact this _
  · unfold winding
    rw [edges_map, List.map_map]
    congr 1
    apply List.map_congr_left
    rintro ⟨a, b⟩ -
    simp only [Function.comp, crossing, crossX, Vec2.add_x, Vec2.add_y]
    have e1 : a.y + d.y < p.y + d.y ↔ a.y < p.y := by constructor <;> intro h <;> linarith
    have e2 : b.y + d.y < p.y + d.y ↔ b.y < p.y := by constructor <;> intro h <;> linarith
    have e3 : p.y + d.y ≤ b.y + d.y ↔ p.y ≤ b.y := by constructor <;> intro h <;> linarith
    have e4 : p.y + d.y ≤ a.y + d.y ↔ p.y ≤ a.y := by constructor <;> intro h <;> linarith
    have e5 : a.x + d.x + (b.x + d.x - (a.x + d.x)) * ((p.y + d.y - (a.y + d.y)) / (b.y + d.y - (a.y + d.y))) =
        (a.x + (b.x - a.x) * ((p.y - a.y) / (b.y - a.y))) + d.x := by
      rw [show p.y + d.y - (a.y + d.y) = p.y - a.y by ring, show b.y + d.y - (a.y + d.y) = b.y - a.y by ring]; ring
    simp only [e1, e2, e3, e4, e5, add_le_add_iff_right]
    congr

/-! ### C49 -/

/-- A point with non-zero winding number is in the convex hull of the vertices. -/
theorem inHull_of_winding {vs : List (Vec2 K)} {p : Vec2 K} (h : winding vs p ≠ 0) : InHull vs p := by
  obtain ⟨⟨e, he, hce, hxe⟩, ⟨f, hf, hcf, hxf⟩⟩ := winding_ne_zero h
  obtain ⟨t, ht0, ht1, hX, hY⟩ := crossX_between hce
  obtain ⟨u, hu0, hu1, hX', hY'⟩ := crossX_between hcf
  have h1 : InHull vs ⟨crossX e.1 e.2 p.y, p.y⟩ := by
    have := InHull.between e.1 e.2 t (.vertex _ (edges_mem he).1) (.vertex _ (edges_mem he).2) ht0 ht1
    rwa [← hX, ← hY] at this
  have h2 : InHull vs ⟨crossX f.1 f.2 p.y, p.y⟩ := by
    have := InHull.between f.1 f.2 u (.vertex _ (edges_mem hf).1) (.vertex _ (edges_mem hf).2) hu0 hu1
    rwa [← hX', ← hY'] at this
  have hd : 0 < crossX f.1 f.2 p.y - crossX e.1 e.2 p.y := by linarith
  have h3 := InHull.between _ _ ((p.x - crossX e.1 e.2 p.y) / (crossX f.1 f.2 p.y - crossX e.1 e.2 p.y)) h1 h2
    (div_nonneg (by linarith) hd.le) (by rw [div_le_one hd]; linarith)
  have : p = ⟨crossX e.1 e.2 p.y + (p.x - crossX e.1 e.2 p.y) / (crossX f.1 f.2 p.y - crossX e.1 e.2 p.y) *
      (crossX f.1 f.2 p.y - crossX e.1 e.2 p.y), p.y + (p.x - crossX e.1 e.2 p.y) /
      (crossX f.1 f.2 p.y - crossX e.1 e.2 p.y) * (p.y - p.y)⟩ := by
    rw [div_mul_cancel₀ _ hd.ne']
    cases p; simp
  rw [this]; exact h3

/-- The hull is inside every half-plane that contains the points. -/
theorem inHull_halfplane {vs : List (Vec2 K)} {p : Vec2 K} (h : InHull vs p) {a b c : K}
    (hv : ∀ v ∈ vs, a * v.x + b * v.y ≤ c) : a * p.x + b * p.y ≤ c := by
  induction h with
  | vertex v hm => exact hv v hm
  | between p q t _ _ h0 h1 ihp ihq =>
    have := mul_le_mul_of_nonneg_left ihp (sub_nonneg.mpr h1)
    have := mul_le_mul_of_nonneg_left ihq h0
    simp only
    nlinarith

/-- The hull is inside every disk that contains the points. -/
theorem inHull_disk {vs : List (Vec2 K)} {p : Vec2 K} (h : InHull vs p) {c : Vec2 K} {r2 : K}
    (hv : ∀ v ∈ vs, (v.x - c.x) * (v.x - c.x) + (v.y - c.y) * (v.y - c.y) ≤ r2) :
    (p.x - c.x) * (p.x - c.x) + (p.y - c.y) * (p.y - c.y) ≤ r2 := by
  induction h with
  | vertex v hm => exact hv v hm
  | between p q t _ _ h0 h1 ihp ihq =>
    have e1 := mul_le_mul_of_nonneg_left ihp (sub_nonneg.mpr h1)
    have e2 := mul_le_mul_of_nonneg_left ihq h0
    have e3 : 0 ≤ t * (1 - t) * ((p.x - q.x) * (p.x - q.x) + (p.y - q.y) * (p.y - q.y)) :=
      mul_nonneg (mul_nonneg h0 (sub_nonneg.mpr h1)) (add_nonneg (mul_self_nonneg _) (mul_self_nonneg _))
    simp only
    have : (p.x + t * (q.x - p.x) - c.x) * (p.x + t * (q.x - p.x) - c.x) +
        (p.y + t * (q.y - p.y) - c.y) * (p.y + t * (q.y - p.y) - c.y) =
        (1 - t) * ((p.x - c.x) * (p.x - c.x) + (p.y - c.y) * (p.y - c.y)) +
        t * ((q.x - c.x) * (q.x - c.x) + (q.y - c.y) * (q.y - c.y)) -
        t * (1 - t) * ((p.x - q.x) * (p.x - q.x) + (p.y - q.y) * (p.y - q.y)) := by ring
    rw [this]
    linarith

/-- **C49** if `contains_point` of a polygon with at least four vertices and nothing cached answers True, the point is
in the convex hull of the vertices. -/
theorem C49_in_hull (eps : K) (vs : List (Vec2 K)) (h : 4 ≤ vs.length) (pt : PyPoint K)
    (hc : ((Polygon.fromPoints vs).containsPoint eps pt).1 = .ok true) : InHull vs pt.toVec := by
  rw [C48_winding eps vs h] at hc
  apply inHull_of_winding
  simpa using hc

/-- **C49** hence in every half-plane `a x + b y ≤ c` that contains all the vertices. -/
theorem C49_halfplane (eps : K) (vs : List (Vec2 K)) (h : 4 ≤ vs.length) (pt : PyPoint K)
    (hc : ((Polygon.fromPoints vs).containsPoint eps pt).1 = .ok true) (a b c : K)
    (hv : ∀ v ∈ vs, a * v.x + b * v.y ≤ c) : a * pt.toVec.x + b * pt.toVec.y ≤ c :=
  inHull_halfplane (C49_in_hull eps vs h pt hc) hv

/-- **C49** and in every disk (centre `c`, squared radius `r2`) that contains all the vertices. -/
theorem C49_disk (eps : K) (vs : List (Vec2 K)) (h : 4 ≤ vs.length) (pt : PyPoint K)
    (hc : ((Polygon.fromPoints vs).containsPoint eps pt).1 = .ok true) (c : Vec2 K) (r2 : K)
    (hv : ∀ v ∈ vs, (v.x - c.x) * (v.x - c.x) + (v.y - c.y) * (v.y - c.y) ≤ r2) :
    (pt.toVec.x - c.x) * (pt.toVec.x - c.x) + (pt.toVec.y - c.y) * (pt.toVec.y - c.y) ≤ r2 :=
  inHull_disk (C49_in_hull eps vs h pt hc) hv

/-! ### C54 -/

/-- A small move to the right and a much smaller move down changes no crossing and leaves every edge. -/
theorem perturb_edge (p : Vec2 K) (e : Vec2 K × Vec2 K) :
    ∃ d0 : K, 0 < d0 ∧ ∀ d, 0 < d → d < d0 → ∃ h0 : K, 0 < h0 ∧ ∀ η, 0 < η → η < h0 →
      crossing ⟨p.x + d, p.y - η⟩ e = crossing p e ∧ ¬ OnEdge e ⟨p.x + d, p.y - η⟩ := by
  obtain ⟨a, b⟩ := e
  -- a distance below which no end point changes side
  have gap : ∀ v : Vec2 K, ∃ g : K, 0 < g ∧ ∀ η, 0 < η → η < g →
      ((p.y - η ≤ v.y ↔ p.y ≤ v.y) ∧ v.y ≠ p.y - η) := by
    intro v
    by_cases hv : p.y ≤ v.y
    · refine ⟨1, one_pos, fun η h1 _ => ⟨⟨fun _ => hv, fun _ => by linarith⟩, fun h => by linarith⟩⟩
    · refine ⟨p.y - v.y, by linarith [not_le.mp hv], fun η h1 h2 => ⟨⟨fun h => by linarith, fun h => absurd h hv⟩, ?_⟩⟩
      intro h; linarith
  obtain ⟨ga, hga, Ha⟩ := gap a
  obtain ⟨gb, hgb, Hb⟩ := gap b
  have hind : ∀ (v : Vec2 K) (d η : K), (p.y - η ≤ v.y ↔ p.y ≤ v.y) →
      aboveInd ⟨p.x + d, p.y - η⟩ v = aboveInd p v := by
    intro v d η h; simp only [aboveInd, h]
  by_cases hab : aboveInd p a = aboveInd p b
  · refine ⟨1, one_pos, fun d _ _ => ⟨min ga gb, lt_min hga hgb, fun η h1 h2 => ?_⟩⟩
    have A := Ha η h1 (lt_of_lt_of_le h2 (min_le_left _ _))
    have B := Hb η h1 (lt_of_lt_of_le h2 (min_le_right _ _))
    refine ⟨?_, ?_⟩
    · rw [crossing_noncross (e := (a, b)) hab, crossing_noncross]
      rw [hind _ _ _ A.1, hind _ _ _ B.1]; exact hab
    · rintro ⟨t, ht0, ht1, -, hy⟩
      simp only at hy
      by_cases ha : p.y ≤ a.y
      · have hb : p.y ≤ b.y := by
          unfold aboveInd at hab; by_contra hb; simp [ha, hb] at hab
        nlinarith
      · have hb : ¬ p.y ≤ b.y := by
          unfold aboveInd at hab; intro hb; simp [ha, hb] at hab
        have ha' : a.y < p.y - η := lt_of_le_of_ne (le_of_not_ge fun h => ha (A.1.mp h)) A.2
        have hb' : b.y < p.y - η := lt_of_le_of_ne (le_of_not_ge fun h => hb (B.1.mp h)) B.2
        rcases le_total a.y b.y with hl | hl
        · nlinarith [mul_le_mul_of_nonneg_right ht1 (sub_nonneg.mpr hl)]
        · nlinarith [mul_nonneg ht0 (sub_nonneg.mpr hl)]
  · have hne : a.y ≠ b.y := by
      rcases crossing_crosses (e := (a, b)) hab with ⟨h1, h2⟩ | ⟨h1, h2⟩ <;> intro h3 <;> simp only at h1 h2 <;> linarith
    have hne' : b.y - a.y ≠ 0 := sub_ne_zero.mpr hne.symm
    obtain ⟨m, hm⟩ : ∃ m : K, ∀ y, crossX a b y = crossX a b p.y + m * (y - p.y) :=
      ⟨(b.x - a.x) / (b.y - a.y), fun y => by unfold crossX; field_simp; ring⟩
    have hm0 : 0 < |m| + 1 := by positivity
    -- the main estimate
    have key : ∀ d, 0 < d → ∀ η, 0 < η → η < d / (|m| + 1) →
        crossX a b p.y - d < crossX a b (p.y - η) ∧ crossX a b (p.y - η) < crossX a b p.y + d := by
      intro d hd η h1 h2
      rw [lt_div_iff₀ hm0] at h2
      rw [hm (p.y - η)]
      have e1 : |m * (p.y - η - p.y)| < d := by
        rw [abs_mul, show p.y - η - p.y = -η by ring, abs_neg, abs_of_pos h1]; nlinarith
      rw [abs_lt] at e1
      constructor <;> linarith [e1.1, e1.2]
    have onx : ∀ q : Vec2 K, OnEdge (a, b) q → q.x = crossX a b q.y := by
      rintro q ⟨t, -, -, hx, hy⟩
      simp only at hx hy
      unfold crossX
      have : (q.y - a.y) / (b.y - a.y) = t := by rw [hy]; field_simp; ring
      rw [this, hx]; ring
    have cr : ∀ (d η : K), (p.y - η ≤ a.y ↔ p.y ≤ a.y) → (p.y - η ≤ b.y ↔ p.y ≤ b.y) →
        (crossX a b (p.y - η) ≤ p.x + d ↔ crossX a b p.y ≤ p.x) →
        crossing ⟨p.x + d, p.y - η⟩ (a, b) = crossing p (a, b) := by
      intro d η A B C
      have A' : a.y < p.y - η ↔ a.y < p.y := by rw [← not_le, ← not_le, A]
      have B' : b.y < p.y - η ↔ b.y < p.y := by rw [← not_le, ← not_le, B]
      unfold crossing
      simp only [A, B, A', B', C]
    by_cases hx : crossX a b p.y ≤ p.x
    · refine ⟨1, one_pos, fun d hd _ => ⟨min (min ga gb) (d / (|m| + 1)), lt_min (lt_min hga hgb) (by positivity), ?_⟩⟩
      intro η h1 h2
      have A := Ha η h1 (lt_of_lt_of_le h2 ((min_le_left _ _).trans (min_le_left _ _)))
      have B := Hb η h1 (lt_of_lt_of_le h2 ((min_le_left _ _).trans (min_le_right _ _)))
      obtain ⟨k1, k2⟩ := key d hd η h1 (lt_of_lt_of_le h2 (min_le_right _ _))
      refine ⟨cr d η A.1 B.1 ⟨fun _ => hx, fun _ => by linarith⟩, fun ho => ?_⟩
      have := onx _ ho
      simp only at this; linarith
    · have hx' := not_le.mp hx
      refine ⟨(crossX a b p.y - p.x) / 2, by linarith, fun d hd hd2 =>
        ⟨min (min ga gb) (d / (|m| + 1)), lt_min (lt_min hga hgb) (by positivity), ?_⟩⟩
      intro η h1 h2
      have A := Ha η h1 (lt_of_lt_of_le h2 ((min_le_left _ _).trans (min_le_left _ _)))
      have B := Hb η h1 (lt_of_lt_of_le h2 ((min_le_left _ _).trans (min_le_right _ _)))
      obtain ⟨k1, k2⟩ := key d hd η h1 (lt_of_lt_of_le h2 (min_le_right _ _))
      refine ⟨cr d η A.1 B.1 ⟨fun h => by linarith, fun h => absurd h hx⟩, fun ho => ?_⟩
      have := onx _ ho
      simp only at this; linarith

theorem perturb_edges (p : Vec2 K) (es : List (Vec2 K × Vec2 K)) :
    ∃ d0 : K, 0 < d0 ∧ ∀ d, 0 < d → d < d0 → ∃ h0 : K, 0 < h0 ∧ ∀ η, 0 < η → η < h0 →
      ∀ e ∈ es, crossing ⟨p.x + d, p.y - η⟩ e = crossing p e ∧ ¬ OnEdge e ⟨p.x + d, p.y - η⟩ := by
  induction es with
  | nil => exact ⟨1, one_pos, fun d _ _ => ⟨1, one_pos, by simp⟩⟩
  | cons e es ih =>
    obtain ⟨d1, hd1, H1⟩ := perturb_edge p e
    obtain ⟨d2, hd2, H2⟩ := ih
    refine ⟨min d1 d2, lt_min hd1 hd2, fun d h0 h => ?_⟩
    obtain ⟨k1, hk1, K1⟩ := H1 d h0 (lt_of_lt_of_le h (min_le_left _ _))
    obtain ⟨k2, hk2, K2⟩ := H2 d h0 (lt_of_lt_of_le h (min_le_right _ _))
    refine ⟨min k1 k2, lt_min hk1 hk2, fun η g0 g => ?_⟩
    have e1 := K1 η g0 (lt_of_lt_of_le g (min_le_left _ _))
    have e2 := K2 η g0 (lt_of_lt_of_le g (min_le_right _ _))
    intro f hf
    rcases List.mem_cons.mp hf with rfl | hf
    · exact e1
    · exact e2 f hf

/-- For finitely many closed paths there is a point arbitrarily near `p`, on none of them, with the same winding numbers. -/
theorem perturb_windings (ps : List (List (Vec2 K))) (p : Vec2 K) (r : K) (hr : 0 < r) :
    ∃ q : Vec2 K, |q.x - p.x| < r ∧ |q.y - p.y| < r ∧
      ∀ vs ∈ ps, winding vs q = winding vs p ∧ ∀ e ∈ edges vs, ¬ OnEdge e q := by
  obtain ⟨d0, hd0, H⟩ := perturb_edges p (ps.flatMap edges)
  have hm : 0 < min d0 r := lt_min hd0 hr
  obtain ⟨h0, hh0, H'⟩ := H (min d0 r / 2) (by linarith) (by linarith [min_le_left d0 r])
  have hm' : 0 < min h0 r := lt_min hh0 hr
  have H'' := H' (min h0 r / 2) (by linarith) (by linarith [min_le_left h0 r])
  refine ⟨⟨p.x + min d0 r / 2, p.y - min h0 r / 2⟩, ?_, ?_, ?_⟩
  · simp only
    rw [show p.x + min d0 r / 2 - p.x = min d0 r / 2 by ring, abs_of_pos (by linarith)]
    linarith [min_le_right d0 r]
  · simp only
    rw [show p.y - min h0 r / 2 - p.y = -(min h0 r / 2) by ring, abs_neg, abs_of_pos (by linarith)]
    linarith [min_le_right h0 r]
  · intro vs hvs
    refine ⟨?_, fun e he => (H'' e (List.mem_flatMap.mpr ⟨vs, hvs, he⟩)).2⟩
    unfold winding
    congr 1
    apply List.map_congr_left
    intro e he
    exact (H'' e (List.mem_flatMap.mpr ⟨vs, hvs, he⟩)).1

/-- **C54** whatever finite family of polygons is given, and however near, there is a point off every boundary to
which each of the polygons gives the answer it gives to `p`. -/
theorem C54_generic_point (eps : K) (ps : List (List (Vec2 K))) (h4 : ∀ vs ∈ ps, 4 ≤ vs.length) (p : Vec2 K)
    (r : K) (hr : 0 < r) :
    ∃ q : Vec2 K, |q.x - p.x| < r ∧ |q.y - p.y| < r ∧ ∀ vs ∈ ps,
      ((Polygon.fromPoints vs).containsPoint eps (.vec q)).1 = ((Polygon.fromPoints vs).containsPoint eps (.vec p)).1 ∧
      ∀ e ∈ edges vs, ¬ OnEdge e q := by
  obtain ⟨q, h1, h2, H⟩ := perturb_windings ps p r hr
  refine ⟨q, h1, h2, fun vs hvs => ⟨?_, (H vs hvs).2⟩⟩
  rw [C48_winding eps vs (h4 vs hvs), C48_winding eps vs (h4 vs hvs)]
  simp only [PyPoint.toVec, (H vs hvs).1]

/-- **C54** so two polygons that share no point off their boundaries never both contain a point. -/
theorem C54_disjoint (eps : K) (vs ws : List (Vec2 K)) (hv : 4 ≤ vs.length) (hw : 4 ≤ ws.length)
    (hdis : ∀ q : Vec2 K, (∀ e ∈ edges vs, ¬ OnEdge e q) → (∀ e ∈ edges ws, ¬ OnEdge e q) →
      ¬ (((Polygon.fromPoints vs).containsPoint eps (.vec q)).1 = .ok true ∧
        ((Polygon.fromPoints ws).containsPoint eps (.vec q)).1 = .ok true)) (p : Vec2 K) :
    ¬ (((Polygon.fromPoints vs).containsPoint eps (.vec p)).1 = .ok true ∧
        ((Polygon.fromPoints ws).containsPoint eps (.vec p)).1 = .ok true) := by
  obtain ⟨q, -, -, H⟩ := C54_generic_point eps [vs, ws] (by simp [hv, hw]) p 1 one_pos
  have e1 := H vs (by simp)
  have e2 := H ws (by simp)
  rw [← e1.1, ← e2.1]
  exact hdis q e1.2 e2.2

/-- **C54** cutting a closed path along a chord splits the winding number. -/
theorem C54_chord (a b : Vec2 K) (l m : List (Vec2 K)) (p : Vec2 K) :
    winding (a :: l ++ b :: m) p = winding (a :: l ++ [b]) p + winding (b :: m ++ [a]) p := by
  have hrev : crossing p (a, b) + crossing p (b, a) = 0 := by
    have h := (C48_invariance [a, b] p ⟨0, 0⟩ 0).2.1
    have h2 := (C48_invariance [a, b] p ⟨0, 0⟩ 1).1
    simp only [winding, edges, edgesFrom, List.reverse_cons, List.reverse_nil, List.nil_append, List.cons_append,
      List.getLast?_cons_cons, List.getLast?_singleton, List.map_cons, List.map_nil, List.sum_cons, List.sum_nil,
      List.rotate_cons_succ, List.rotate_zero] at h h2
    omega
  have E : ∀ (x y : Vec2 K) (u v : List (Vec2 K)), winding (x :: u ++ y :: v) p =
      ((edgesFrom x (u ++ [y])).map (crossing p)).sum + ((edgesFrom y (v ++ [x])).map (crossing p)).sum := by
    intro x y u v
    have e1 : (x :: u ++ y :: v).rotate 1 = u ++ y :: v ++ [x] := by simp
    rw [← (C48_invariance (x :: u ++ y :: v) p ⟨0, 0⟩ 1).1, e1]
    unfold winding
    have e2 : edges (u ++ y :: v ++ [x]) = edgesFrom x (u ++ y :: v ++ [x]) := edges_snoc _ _
    rw [e2, show u ++ y :: v ++ [x] = (u ++ [y]) ++ (v ++ [x]) by simp, edgesFrom_append, List.map_append, List.sum_append]
    simp
  have hE1 := E a b l m
  have hE2 := E a b l []
  have hE3 := E b a m []
  rw [hE1, hE2, hE3]
  simp only [List.nil_append, edgesFrom, List.map_cons, List.map_nil, List.sum_cons, List.sum_nil]
  omega

/-- **C54** a polygon cut along a chord, with winding numbers 0 and `σ` only (1 or -1 by orientation): a point of the polygon belongs to exactly
one part, a point outside to none. -/
theorem C54_partition (eps : K) (a b : Vec2 K) (l m : List (Vec2 K)) (hl : 2 ≤ l.length) (hm : 2 ≤ m.length)
    (p : Vec2 K) (σ : Int) (hσ : σ ≠ 0) (h : winding (a :: l ++ b :: m) p = 0 ∨ winding (a :: l ++ b :: m) p = σ)
    (h1 : winding (a :: l ++ [b]) p = 0 ∨ winding (a :: l ++ [b]) p = σ)
    (h2 : winding (b :: m ++ [a]) p = 0 ∨ winding (b :: m ++ [a]) p = σ) :
    (((Polygon.fromPoints (a :: l ++ b :: m)).containsPoint eps (.vec p)).1 = .ok true ↔
      Xor (((Polygon.fromPoints (a :: l ++ [b])).containsPoint eps (.vec p)).1 = .ok true)
        (((Polygon.fromPoints (b :: m ++ [a])).containsPoint eps (.vec p)).1 = .ok true)) ∧
    ¬ (((Polygon.fromPoints (a :: l ++ [b])).containsPoint eps (.vec p)).1 = .ok true ∧
        ((Polygon.fromPoints (b :: m ++ [a])).containsPoint eps (.vec p)).1 = .ok true) := by
  have hc := C54_chord a b l m p
  rw [C48_winding eps _ (by simp; omega), C48_winding eps _ (by simp; omega), C48_winding eps _ (by simp; omega)]
  simp only [PyPoint.toVec, Except.ok.injEq, bne_iff_ne, xor_def]
  generalize winding (a :: l ++ b :: m) p = w at *
  generalize winding (a :: l ++ [b]) p = w1 at *
  generalize winding (b :: m ++ [a]) p = w2 at *
  constructor
  · constructor
    · intro _; omega
    · rintro (⟨_, _⟩ | ⟨_, _⟩) <;> omega
  · omega

/-! ### The hypotheses are met by concrete polygons -/

/-- An L-shaped hexagon: the winding number is -1 inside, 0 in the notch, and the test answers so; the lower edge is
outside, the upper edge inside. -/
def lShape : List (Vec2 ℚ) := [⟨0, 0⟩, ⟨4, 0⟩, ⟨4, 2⟩, ⟨2, 2⟩, ⟨2, 4⟩, ⟨0, 4⟩]

example : 4 ≤ lShape.length := by decide
example : winding lShape ⟨1, 1⟩ = -1 ∧ winding lShape ⟨3, 3⟩ = 0 ∧ winding lShape ⟨1, 0⟩ = 0 ∧
    winding lShape ⟨3, 2⟩ = -1 ∧ winding lShape ⟨0, 1⟩ = -1 ∧ winding lShape ⟨4, 1⟩ = 0 := by decide +kernel
example : ((Polygon.fromPoints lShape).containsPoint (1 / 1000) (.tup 1 1)).1 = .ok true := by
  rw [C48_winding _ _ (by decide)]; exact congrArg Except.ok (by decide +kernel)
/-- A pentagram winds twice around its centre, which it contains; a bow tie winds +1 and -1. -/
example : winding [⟨0, 0⟩, ⟨3, 9⟩, ⟨6, 0⟩, ⟨-2, 6⟩, (⟨8, 6⟩ : Vec2 ℚ)] ⟨3, 4⟩ = 2 ∨
    winding [⟨0, 0⟩, ⟨3, 9⟩, ⟨6, 0⟩, ⟨-2, 6⟩, (⟨8, 6⟩ : Vec2 ℚ)] ⟨3, 4⟩ = -2 := by decide +kernel
/-- C54_partition: the L-shape cut from (0,0) to (2,2). -/
example : winding ([⟨0, 0⟩, ⟨4, 0⟩, ⟨4, 2⟩] ++ [(⟨2, 2⟩ : Vec2 ℚ)]) ⟨1, 1⟩ = -1 ∧
    winding ([⟨2, 2⟩, ⟨2, 4⟩, ⟨0, 4⟩] ++ [(⟨0, 0⟩ : Vec2 ℚ)]) ⟨1, 1⟩ = 0 := by decide +kernel

end Planar
