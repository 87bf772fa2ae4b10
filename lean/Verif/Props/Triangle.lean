import Verif.Props.PolyState
import Verif.Lemmas.Sort
import Mathlib.Data.List.Permutation
/- Property C50: the triangle test of `contains_point` against the winding rule. -/
set_option linter.unusedSectionVars false
namespace Planar
open Spec Polygon
variable {K : Type} [Field K] [LinearOrder K] [IsStrictOrderedRing K]

/-- The order of the vertices used by the triangle test: by height, then from left to right (specification). -/
def YXLe (a b : Vec2 K) : Prop := a.y < b.y ∨ (a.y = b.y ∧ a.x ≤ b.x)

theorem yxLt_iff (a b : Vec2 K) : yxLt b a = false ↔ YXLe a b := by
  unfold yxLt YXLe
  by_cases h : b.y = a.y
  · simp [h]
  · simp only [beq_iff_eq, h, if_false, decide_eq_false_iff_not, not_lt]
    constructor
    · intro h'; left; exact lt_of_le_of_ne h' (Ne.symm h)
    · rintro (h' | h')
      · exact h'.le
      · exact absurd h'.1.symm h

theorem YXLe.trans {a b c : Vec2 K} (h1 : YXLe a b) (h2 : YXLe b c) : YXLe a c := by
  rcases h1 with h1 | ⟨h1, h1'⟩ <;> rcases h2 with h2 | ⟨h2, h2'⟩
  · left; linarith
  · left; linarith
  · left; linarith
  · right; exact ⟨h1.trans h2, h1'.trans h2'⟩

theorem YXLe.total (a b : Vec2 K) : YXLe a b ∨ YXLe b a := by
  rcases lt_trichotomy a.y b.y with h | h | h
  · exact Or.inl (Or.inl h)
  · rcases le_total a.x b.x with h' | h'
    · exact Or.inl (Or.inr ⟨h, h'⟩)
    · exact Or.inr (Or.inr ⟨h.symm, h'⟩)
  · exact Or.inr (Or.inl h)

theorem YXLe.antisymm {a b : Vec2 K} (h1 : YXLe a b) (h2 : YXLe b a) : a = b := by
  rcases h1 with h1 | ⟨h1, h1'⟩ <;> rcases h2 with h2 | ⟨h2, h2'⟩
  · exact absurd h1 (not_lt.mpr h2.le)
  · exact absurd h1 (by rw [h2]; exact lt_irrefl _)
  · exact absurd h2 (by rw [h1]; exact lt_irrefl _)
  · exact Vec2.ext (le_antisymm h1' h2') h1

theorem yxLt_trans (a b c : Vec2 K) (h1 : yxLt b a = false) (h2 : yxLt c b = false) : yxLt c a = false := by
  rw [yxLt_iff] at *; exact h1.trans h2

theorem yxLt_total (a b : Vec2 K) : yxLt b a = false ∨ yxLt a b = false := by
  rw [yxLt_iff, yxLt_iff]; exact YXLe.total a b

theorem sort_triangle {vs : List (Vec2 K)} {lo mid hi : Vec2 K} (hp : vs.Perm [lo, mid, hi]) (h1 : YXLe lo mid)
    (h2 : YXLe mid hi) : pySorted yxLt vs = [lo, mid, hi] := by
  refine pySorted_unique yxLt_trans yxLt_total ?_ hp ?_
  · intro a b hab hba
    rw [yxLt_iff] at hab hba
    exact hab.antisymm hba
  · simp only [yxLt_iff, List.pairwise_cons, List.mem_cons, List.not_mem_nil, or_false, forall_eq_or_imp, forall_eq]
    exact ⟨⟨h1, h1.trans h2⟩, h2, by simp⟩

theorem crossing_swap (p a b : Vec2 K) : crossing p (b, a) = - crossing p (a, b) := by
  have h := C54_chord a b ([] : List (Vec2 K)) [] p
  have h2 := (C48_invariance [a, b] p ⟨0, 0⟩ 0).2.1
  simp only [winding, edges, edgesFrom, List.reverse_cons, List.reverse_nil, List.nil_append, List.cons_append,
      List.getLast?_cons_cons, List.getLast?_singleton, List.map_cons, List.map_nil, List.sum_cons, List.sum_nil] at h h2
  omega

theorem winding_triangle (p a b c : Vec2 K) :
    winding [a, b, c] p = crossing p (c, a) + crossing p (a, b) + crossing p (b, c) := by
  simp only [winding, edges, edgesFrom, List.getLast?_cons_cons, List.getLast?_singleton, List.map_cons, List.map_nil,
    List.sum_cons, List.sum_nil]; ring

theorem winding_triangle_perm {vs : List (Vec2 K)} {a b c : Vec2 K} (hp : vs.Perm [a, b, c]) (p : Vec2 K) :
    winding vs p = winding [a, b, c] p ∨ winding vs p = - winding [a, b, c] p := by
  rw [← List.mem_permutations'] at hp
  simp only [List.permutations', List.permutations'Aux, List.flatMap_cons, List.flatMap_nil, List.map_cons, List.map_nil,
    List.append_nil, List.cons_append, List.nil_append, List.mem_cons, List.not_mem_nil, or_false] at hp
  have e1 := crossing_swap p a b
  have e2 := crossing_swap p b c
  have e3 := crossing_swap p a c
  rcases hp with rfl | rfl | rfl | rfl | rfl | rfl <;> simp only [winding_triangle] <;> first | (left; trivial) | (left; omega) | (right; omega)

set_option maxHeartbeats 1600000 in
/-- The sign of the crossings of the three edges of the sorted triangle. -/
theorem winding_sorted {lo mid hi p : Vec2 K} (h1 : YXLe lo mid) (h2 : YXLe mid hi) {u v D : K}
    (hD : D = (hi.x - lo.x) * (mid.y - lo.y) - (mid.x - lo.x) * (hi.y - lo.y))
    (hx : p.x = mid.x + u * (lo.x - mid.x) + v * (hi.x - mid.x))
    (hy : p.y = mid.y + u * (lo.y - mid.y) + v * (hi.y - mid.y)) (hD0 : D ≠ 0) :
    winding [lo, mid, hi] p ≠ 0 ↔
      if D > 0 then 0 ≤ u ∧ 0 ≤ v ∧ u + v < 1 else 0 < u ∧ 0 < v ∧ u + v ≤ 1 := by
  have hlm : lo.y ≤ mid.y := by rcases h1 with h | h; exacts [h.le, h.1.le]
  have hmh : mid.y ≤ hi.y := by rcases h2 with h | h; exacts [h.le, h.1.le]
  have hlh : lo.y < hi.y := by
    rcases lt_or_eq_of_le (hlm.trans hmh) with h | h
    · exact h
    · exfalso; apply hD0
      have e1 : lo.y = mid.y := le_antisymm hlm (h ▸ hmh)
      rw [hD, ← h, ← e1]; ring
  -- the three sides
  have hA : (mid.x - lo.x) * (p.y - lo.y) - (p.x - lo.x) * (mid.y - lo.y) = -(v * D) := by rw [hD, hx, hy]; ring
  have hB : (hi.x - lo.x) * (p.y - lo.y) - (p.x - lo.x) * (hi.y - lo.y) = (1 - u - v) * D := by rw [hD, hx, hy]; ring
  have hB' : (lo.x - hi.x) * (p.y - hi.y) - (p.x - hi.x) * (lo.y - hi.y) = -((1 - u - v) * D) := by rw [hD, hx, hy]; ring
  have hC : (hi.x - mid.x) * (p.y - mid.y) - (p.x - mid.x) * (hi.y - mid.y) = -(u * D) := by rw [hD, hx, hy]; ring
  have hyl : p.y - lo.y = (1 - u - v) * (mid.y - lo.y) + v * (hi.y - lo.y) := by rw [hy]; ring
  have hyh : hi.y - p.y = (1 - u - v) * (hi.y - mid.y) + u * (hi.y - lo.y) := by rw [hy]; ring
  have hym : mid.y - p.y = u * (mid.y - lo.y) - v * (hi.y - mid.y) := by rw [hy]; ring
  rw [winding_triangle, ← windStep_eq, ← windStep_eq, ← windStep_eq]
  unfold windStep
  simp only [hA, hB', hC]
  obtain ⟨w, hw⟩ : ∃ w, w = 1 - u - v := ⟨_, rfl⟩
  rw [← hw] at hyl hyh ⊢
  have hlm' : 0 ≤ mid.y - lo.y := sub_nonneg.mpr hlm
  have hmh0 : 0 ≤ hi.y - mid.y := sub_nonneg.mpr hmh
  have hlh' : 0 < hi.y - lo.y := sub_pos.mpr hlh
  rcases lt_or_gt_of_ne hD0 with hneg | hpos
  · -- `mid` is on the right
    have hmh' : 0 < hi.y - mid.y := by
      rcases lt_or_eq_of_le hmh with h | h
      · exact sub_pos.mpr h
      · exfalso
        rcases h2 with h' | h'
        · exact absurd h (ne_of_lt h')
        · have : D = (hi.x - mid.x) * (hi.y - lo.y) := by rw [hD, h]; ring
          nlinarith [mul_nonneg (sub_nonneg.mpr h'.2) hlh'.le]
    have s1 : ∀ t : K, -(t * D) ≤ 0 ↔ t ≤ 0 := by
      intro t; constructor <;> intro h
      · by_contra hc; nlinarith [mul_pos (not_le.mp hc) (neg_pos.mpr hneg)]
      · nlinarith [mul_nonneg (neg_nonneg.mpr h) (neg_nonneg.mpr hneg.le)]
    have s2 : ∀ t : K, -(t * D) ≥ 0 ↔ 0 ≤ t := by
      intro t; constructor <;> intro h
      · by_contra hc; nlinarith [mul_pos_of_neg_of_neg (not_le.mp hc) hneg]
      · nlinarith [mul_nonneg h (neg_nonneg.mpr hneg.le)]
    simp only [s1, s2, show ¬ D > 0 from not_lt.mpr hneg.le, if_false]
    by_cases pl : p.y ≤ lo.y
    · have pm := pl.trans hlm
      have ph := pm.trans hmh
      simp only [ge_iff_le, pl, pm, ph, decide_true, bne_self_eq_false, Bool.false_eq_true, if_false, add_zero, ne_eq, not_true_eq_false, false_iff]
      rintro ⟨hu, hv, huv⟩
      nlinarith [mul_nonneg (show 0 ≤ w by linarith) hlm', mul_pos hv hlh']
    · have pl' := not_le.mp pl
      by_cases pm : p.y ≤ mid.y
      · have ph := pm.trans hmh
        simp only [ge_iff_le, pl, pm, ph, decide_true, decide_false, bne_self_eq_false, Bool.false_eq_true, if_false, add_zero,
          show (true != false) = true from rfl, show (false != true) = true from rfl, if_true]
        by_cases h0 : 0 ≤ w <;> by_cases h1 : v ≤ 0 <;> simp only [h0, h1, if_true, if_false]
        · simp; intro _ h'; exact absurd h' (not_lt.mpr h1)
        · have hv := not_le.mp h1
          have hu : 0 < u := by
            by_contra hc
            nlinarith [mul_pos hv hmh', mul_nonneg (neg_nonneg.mpr (not_lt.mp hc)) hlm']
          simp; exact ⟨hu, hv, by linarith⟩
        · exfalso
          nlinarith [mul_nonneg (neg_nonneg.mpr (not_le.mp h0).le) hlm', mul_nonneg (neg_nonneg.mpr h1) hlh'.le]
        · simp; intro _ _; linarith [not_le.mp h0]
      · have pm' := not_le.mp pm
        by_cases ph : p.y ≤ hi.y
        · simp only [ge_iff_le, pl, pm, ph, decide_true, decide_false, bne_self_eq_false, Bool.false_eq_true, if_false, add_zero,
            show (true != false) = true from rfl, show (false != true) = true from rfl, if_true]
          by_cases h0 : 0 ≤ w <;> by_cases h1 : u ≤ 0 <;> simp only [h0, h1, if_true, if_false]
          · simp; intro h'; exact absurd h' (not_lt.mpr h1)
          · have hu := not_le.mp h1
            have hv : 0 < v := by
              by_contra hc
              nlinarith [mul_nonneg hu.le hlm', mul_nonneg (neg_nonneg.mpr (not_lt.mp hc)) hmh'.le]
            simp; exact ⟨hu, hv, by linarith⟩
          · exfalso
            nlinarith [mul_pos (neg_pos.mpr (not_le.mp h0)) hmh', mul_nonneg (neg_nonneg.mpr h1) hlh'.le]
          · simp; intro _ _; linarith [not_le.mp h0]
        · have ph' := not_le.mp ph
          simp only [ge_iff_le, pl, pm, ph, decide_false, bne_self_eq_false, Bool.false_eq_true, if_false, add_zero, ne_eq, not_true_eq_false, false_iff]
          rintro ⟨hu, hv, huv⟩
          nlinarith [mul_nonneg (show 0 ≤ w by linarith) hmh'.le, mul_pos hu hlh']
  · -- `mid` is on the left
    have hlm2 : 0 < mid.y - lo.y := by
      rcases lt_or_eq_of_le hlm with h | h
      · exact sub_pos.mpr h
      · exfalso
        rcases h1 with h' | h'
        · exact absurd h (ne_of_lt h')
        · have : D = -((mid.x - lo.x) * (hi.y - lo.y)) := by rw [hD, h]; ring
          nlinarith [mul_nonneg (sub_nonneg.mpr h'.2) hlh'.le]
    have s1 : ∀ t : K, -(t * D) ≤ 0 ↔ 0 ≤ t := by
      intro t; constructor <;> intro h
      · by_contra hc; nlinarith [mul_pos (neg_pos.mpr (not_le.mp hc)) hpos]
      · nlinarith [mul_nonneg h hpos.le]
    have s2 : ∀ t : K, -(t * D) ≥ 0 ↔ t ≤ 0 := by
      intro t; constructor <;> intro h
      · by_contra hc; nlinarith [mul_pos (not_le.mp hc) hpos]
      · nlinarith [mul_nonneg (neg_nonneg.mpr h) hpos.le]
    simp only [s1, s2, show D > 0 from hpos, if_true]
    by_cases pl : p.y ≤ lo.y
    · have pm := pl.trans hlm
      have ph := pm.trans hmh
      simp only [ge_iff_le, pl, pm, ph, decide_true, bne_self_eq_false, Bool.false_eq_true, if_false, add_zero, ne_eq, not_true_eq_false, false_iff]
      rintro ⟨hu, hv, huv⟩
      nlinarith [mul_pos (show 0 < w by linarith) hlm2, mul_nonneg hv hlh'.le]
    · have pl' := not_le.mp pl
      by_cases pm : p.y ≤ mid.y
      · have ph := pm.trans hmh
        simp only [ge_iff_le, pl, pm, ph, decide_true, decide_false, bne_self_eq_false, Bool.false_eq_true, if_false, add_zero,
          show (true != false) = true from rfl, show (false != true) = true from rfl, if_true]
        by_cases h0 : w ≤ 0 <;> by_cases h1 : 0 ≤ v <;> simp only [h0, h1, if_true, if_false]
        · simp; intro _; linarith
        · exfalso
          nlinarith [mul_nonneg (neg_nonneg.mpr h0) hlm', mul_pos (neg_pos.mpr (not_le.mp h1)) hlh']
        · have hu : 0 ≤ u := by
            by_contra hc
            nlinarith [mul_nonneg h1 hmh0, mul_pos (neg_pos.mpr (not_le.mp hc)) hlm2]
          simp; exact ⟨hu, by linarith [not_le.mp h0]⟩
        · simp
      · have pm' := not_le.mp pm
        by_cases ph : p.y ≤ hi.y
        · simp only [ge_iff_le, pl, pm, ph, decide_true, decide_false, bne_self_eq_false, Bool.false_eq_true, if_false, add_zero,
            show (true != false) = true from rfl, show (false != true) = true from rfl, if_true]
          by_cases h0 : w ≤ 0 <;> by_cases h1 : 0 ≤ u <;> simp only [h0, h1, if_true, if_false]
          · simp; intro _; linarith
          · exfalso
            nlinarith [mul_nonneg (neg_nonneg.mpr h0) hmh0, mul_pos (neg_pos.mpr (not_le.mp h1)) hlh']
          · have hv : 0 ≤ v := by
              by_contra hc
              nlinarith [mul_nonneg h1 hlm', mul_nonneg (neg_nonneg.mpr (not_le.mp hc).le) hmh0]
            simp; exact ⟨hv, by linarith [not_le.mp h0]⟩
          · simp
        · have ph' := not_le.mp ph
          simp only [ge_iff_le, pl, pm, ph, decide_false, bne_self_eq_false, Bool.false_eq_true, if_false, add_zero, ne_eq, not_true_eq_false, false_iff]
          rintro ⟨hu, hv, huv⟩
          nlinarith [mul_nonneg (show 0 ≤ w by linarith) hmh0, mul_nonneg hu hlh'.le]

/-- A flat triangle contains nothing. -/
theorem winding_flat {lo mid hi p : Vec2 K} (h1 : YXLe lo mid) (h2 : YXLe mid hi)
    (hD : (hi.x - lo.x) * (mid.y - lo.y) - (mid.x - lo.x) * (hi.y - lo.y) = 0) : winding [lo, mid, hi] p = 0 := by
  have hlm : lo.y ≤ mid.y := by rcases h1 with h | h; exacts [h.le, h.1.le]
  have hmh : mid.y ≤ hi.y := by rcases h2 with h | h; exacts [h.le, h.1.le]
  rw [winding_triangle]
  by_cases pl : p.y ≤ lo.y
  · rw [crossing_noncross, crossing_noncross, crossing_noncross] <;> simp [aboveInd, pl, pl.trans hlm, pl.trans (hlm.trans hmh)]
  by_cases ph : hi.y < p.y
  · rw [crossing_noncross, crossing_noncross, crossing_noncross] <;> simp [aboveInd, pl, not_le.mpr ph, not_le.mpr (hmh.trans_lt ph)]
  have hlh : 0 < hi.y - lo.y := by linarith [not_le.mp pl, not_lt.mp ph]
  have ph := not_lt.mp ph
  rw [← windStep_eq, ← windStep_eq, ← windStep_eq]
  unfold windStep
  by_cases pm : p.y ≤ mid.y
  · simp only [ge_iff_le, pl, pm, ph, decide_true, decide_false, bne_self_eq_false, Bool.false_eq_true, if_false, add_zero,
          show (true != false) = true from rfl, show (false != true) = true from rfl, if_true]
    have hm : 0 < mid.y - lo.y := by linarith [not_le.mp pl]
    have e : ((mid.x - lo.x) * (p.y - lo.y) - (p.x - lo.x) * (mid.y - lo.y)) * (hi.y - lo.y) =
      -((lo.x - hi.x) * (p.y - hi.y) - (p.x - hi.x) * (lo.y - hi.y)) * (mid.y - lo.y) := by linear_combination -(p.y - lo.y) * hD
    have s : 0 ≤ ((lo.x - hi.x) * (p.y - hi.y) - (p.x - hi.x) * (lo.y - hi.y)) ↔
        ((mid.x - lo.x) * (p.y - lo.y) - (p.x - lo.x) * (mid.y - lo.y)) ≤ 0 := by
      generalize (mid.x - lo.x) * (p.y - lo.y) - (p.x - lo.x) * (mid.y - lo.y) = A at *
      generalize (lo.x - hi.x) * (p.y - hi.y) - (p.x - hi.x) * (lo.y - hi.y) = B at *
      constructor <;> intro h <;> by_contra hc
      · nlinarith [mul_pos (not_le.mp hc) hlh, mul_nonneg h hm.le]
      · nlinarith [mul_nonneg (neg_nonneg.mpr h) hlh.le, mul_pos (neg_pos.mpr (not_le.mp hc)) hm]
    simp only [s]
    split <;> simp
  · simp only [ge_iff_le, pl, pm, ph, decide_true, decide_false, bne_self_eq_false, Bool.false_eq_true, if_false, add_zero,
          show (true != false) = true from rfl, show (false != true) = true from rfl, if_true]
    have hm : 0 < hi.y - mid.y := by linarith [not_le.mp pm]
    have e : ((hi.x - mid.x) * (p.y - mid.y) - (p.x - mid.x) * (hi.y - mid.y)) * (hi.y - lo.y) =
      -((lo.x - hi.x) * (p.y - hi.y) - (p.x - hi.x) * (lo.y - hi.y)) * (hi.y - mid.y) := by linear_combination (p.y - hi.y) * hD
    have s : 0 ≤ ((lo.x - hi.x) * (p.y - hi.y) - (p.x - hi.x) * (lo.y - hi.y)) ↔
        ((hi.x - mid.x) * (p.y - mid.y) - (p.x - mid.x) * (hi.y - mid.y)) ≤ 0 := by
      generalize (hi.x - mid.x) * (p.y - mid.y) - (p.x - mid.x) * (hi.y - mid.y) = A at *
      generalize (lo.x - hi.x) * (p.y - hi.y) - (p.x - hi.x) * (lo.y - hi.y) = B at *
      constructor <;> intro h <;> by_contra hc
      · nlinarith [mul_pos (not_le.mp hc) hlh, mul_nonneg h hm.le]
      · nlinarith [mul_nonneg (neg_nonneg.mpr h) hlh.le, mul_pos (neg_pos.mpr (not_le.mp hc)) hm]
    simp only [s]
    split <;> simp

/-- **C50** a triangle whose edges at the middle vertex (in the order by height, then from left to right) are not null
within EPSILON: for every `Vec2` point `contains_point` gives the answer of the general winding rule. (Partial: a plain
tuple is accepted by the general rule and not by this one, see `C50_tuple_violated`.) -/
theorem C50_triangle_partial (eps : K) (vs : List (Vec2 K)) (lo mid hi : Vec2 K) (hp : vs.Perm [lo, mid, hi])
    (h1 : YXLe lo mid) (h2 : YXLe mid hi) (n1 : (lo - mid).isNull eps = false) (n2 : (hi - mid).isNull eps = false)
    (p : Vec2 K) :
    ((Polygon.fromPoints vs).containsPoint eps (.vec p)).1 = .ok (winding vs p != 0) := by
  have hlen : vs.length = 3 := hp.length_eq
  have hw : (winding vs p != 0) = (winding [lo, mid, hi] p != 0) := by
    rcases winding_triangle_perm hp p with h | h
    · rw [h]
    · rw [h]
      by_cases h0 : winding [lo, mid, hi] p = 0
      · simp [h0]
      · rw [bne_iff_ne.mpr h0, bne_iff_ne.mpr (by omega)]
  rw [hw]
  unfold containsPoint
  rw [fromPoints_verts]
  simp only [hlen, if_true]
  unfold pnpTriangle
  have ht : (Polygon.fromPoints vs).triTest = none := by simp [fromPoints, cleared]
  rw [ht, fromPoints_verts]
  simp only
  unfold triangleClosure
  rw [sort_triangle hp h1 h2]
  simp only [n1, n2, Bool.or_self, Bool.false_eq_true, if_false]
  obtain ⟨D, hD⟩ : ∃ D, D = (hi.x - lo.x) * (mid.y - lo.y) - (mid.x - lo.x) * (hi.y - lo.y) := ⟨_, rfl⟩
  have hden : (lo - mid).length2 * (hi - mid).length2 - (lo - mid).dot (hi - mid) * (lo - mid).dot (hi - mid) = D * D := by
    rw [hD]; simp only [Vec2.length2, Vec2.dot, Vec2.sub_x, Vec2.sub_y]; ring
  rw [hden]
  by_cases hD0 : D = 0
  · simp only [hD0, mul_zero, beq_self_eq_true, if_true]
    rw [winding_flat h1 h2 (hD ▸ hD0)]; rfl
  · have hDD : D * D ≠ 0 := mul_ne_zero hD0 hD0
    have hb : (D * D == 0) = false := by simpa using hD0
    simp only [hb, Bool.false_eq_true, if_false, bind, Except.bind, pydiv_ok hDD, pure, Except.pure]
    unfold TriClosure.run
    simp only [PyPoint.sub, bind, Except.bind, pure, Except.pure, ← hD]
    obtain ⟨u, hu⟩ : ∃ u, u = ((hi - mid).length2 * (lo - mid).dot (p - mid) - (lo - mid).dot (hi - mid) * (hi - mid).dot (p - mid)) *
      (1 / (D * D)) := ⟨_, rfl⟩
    obtain ⟨v, hv⟩ : ∃ v, v = ((lo - mid).length2 * (hi - mid).dot (p - mid) - (lo - mid).dot (hi - mid) * (lo - mid).dot (p - mid)) *
      (1 / (D * D)) := ⟨_, rfl⟩
    rw [← hu, ← hv]
    have hu' : u * (D * D) = ((hi - mid).length2 * (lo - mid).dot (p - mid) - (lo - mid).dot (hi - mid) * (hi - mid).dot (p - mid)) := by
      rw [hu]; field_simp
    have hv' : v * (D * D) = ((lo - mid).length2 * (hi - mid).dot (p - mid) - (lo - mid).dot (hi - mid) * (lo - mid).dot (p - mid)) := by
      rw [hv]; field_simp
    simp only [Vec2.length2, Vec2.dot, Vec2.sub_x, Vec2.sub_y] at hu' hv'
    have hx : p.x = mid.x + u * (lo.x - mid.x) + v * (hi.x - mid.x) := by
      apply mul_right_cancel₀ hDD
      have : (mid.x + u * (lo.x - mid.x) + v * (hi.x - mid.x)) * (D * D) =
        mid.x * (D * D) + (u * (D * D)) * (lo.x - mid.x) + (v * (D * D)) * (hi.x - mid.x) := by ring
      rw [this, hu', hv', hD]; ring
    have hy : p.y = mid.y + u * (lo.y - mid.y) + v * (hi.y - mid.y) := by
      apply mul_right_cancel₀ hDD
      have : (mid.y + u * (lo.y - mid.y) + v * (hi.y - mid.y)) * (D * D) =
        mid.y * (D * D) + (u * (D * D)) * (lo.y - mid.y) + (v * (D * D)) * (hi.y - mid.y) := by ring
      rw [this, hu', hv', hD]; ring
    have key := winding_sorted h1 h2 hD hx hy hD0
    by_cases hpos : D > 0
    · simp only [hpos, if_true, decide_true] at key ⊢
      congr 1
      rw [Bool.eq_iff_iff, bne_iff_ne, key]
      simp [and_assoc]
    · simp only [hpos, if_false, decide_false, Bool.false_eq_true] at key ⊢
      congr 1
      rw [Bool.eq_iff_iff, bne_iff_ne, key]
      simp [and_assoc]

/-- **C50** is violated for plain tuples: the general rule accepts them (`C48_winding`), the triangle test raises
TypeError for every triangle of positive area whose edges at the middle vertex are not null. -/
theorem C50_tuple_violated (eps : K) (vs : List (Vec2 K)) (lo mid hi : Vec2 K) (hp : vs.Perm [lo, mid, hi])
    (h1 : YXLe lo mid) (h2 : YXLe mid hi) (n1 : (lo - mid).isNull eps = false) (n2 : (hi - mid).isNull eps = false)
    (hD : (hi.x - lo.x) * (mid.y - lo.y) - (mid.x - lo.x) * (hi.y - lo.y) ≠ 0) (x y : K) :
    ((Polygon.fromPoints vs).containsPoint eps (.tup x y)).1 = .error .typeError := by
  have hlen : vs.length = 3 := hp.length_eq
  unfold containsPoint
  rw [fromPoints_verts]
  simp only [hlen, if_true]
  unfold pnpTriangle
  have ht : (Polygon.fromPoints vs).triTest = none := by simp [fromPoints, cleared]
  rw [ht, fromPoints_verts]
  simp only
  unfold triangleClosure
  rw [sort_triangle hp h1 h2]
  simp only [n1, n2, Bool.or_self, Bool.false_eq_true, if_false]
  have hden : (lo - mid).length2 * (hi - mid).length2 - (lo - mid).dot (hi - mid) * (lo - mid).dot (hi - mid) =
      ((hi.x - lo.x) * (mid.y - lo.y) - (mid.x - lo.x) * (hi.y - lo.y)) *
      ((hi.x - lo.x) * (mid.y - lo.y) - (mid.x - lo.x) * (hi.y - lo.y)) := by
    simp only [Vec2.length2, Vec2.dot, Vec2.sub_x, Vec2.sub_y]; ring
  rw [hden]
  have hDD := mul_ne_zero hD hD
  have hb := beq_eq_false_iff_ne.mpr hDD
  simp only [hb, Bool.false_eq_true, if_false, bind, Except.bind, pydiv_ok hDD, pure, Except.pure]
  unfold TriClosure.run
  simp only [PyPoint.sub, bind, Except.bind]

/-- **C50** is violated for triangles within EPSILON: a nonzero winding number, and the answer is False. -/
theorem C50_tiny_violated (eps : K) (vs : List (Vec2 K)) (lo mid hi : Vec2 K) (hp : vs.Perm [lo, mid, hi])
    (h1 : YXLe lo mid) (h2 : YXLe mid hi) (n : (lo - mid).isNull eps = true ∨ (hi - mid).isNull eps = true)
    (p : PyPoint K) :
    ((Polygon.fromPoints vs).containsPoint eps p).1 = .ok false := by
  have hlen : vs.length = 3 := hp.length_eq
  unfold containsPoint
  rw [fromPoints_verts]
  simp only [hlen, if_true]
  unfold pnpTriangle
  have ht : (Polygon.fromPoints vs).triTest = none := by simp [fromPoints, cleared]
  rw [ht, fromPoints_verts]
  simp only
  unfold triangleClosure
  rw [sort_triangle hp h1 h2]
  have : ((lo - mid).isNull eps || (hi - mid).isNull eps) = true := by rcases n with n | n <;> simp [n]
  simp only [this, if_true]

/-- Witness for `C50_tiny_violated`: a triangle with a short edge that contains a point by the winding rule. -/
example : (⟨0, 0⟩ - ⟨1/1000000, 0⟩ : Vec2 ℚ).isNull (1/100000) = true ∧
    YXLe (⟨0, 0⟩ : Vec2 ℚ) ⟨1/1000000, 0⟩ ∧ YXLe (⟨1/1000000, 0⟩ : Vec2 ℚ) ⟨0, 3⟩ ∧
    winding [⟨0, 0⟩, ⟨1/1000000, 0⟩, (⟨0, 3⟩ : Vec2 ℚ)] ⟨1/10000000, 1⟩ ≠ 0 := by
  refine ⟨by decide +kernel, Or.inr ⟨rfl, by norm_num⟩, Or.inl (by norm_num), by decide +kernel⟩

/-- The hypotheses of `C50_triangle_partial` hold for the 3-4-5 triangle, and both answers occur. -/
example : YXLe (⟨0, 0⟩ : Vec2 ℚ) ⟨4, 0⟩ ∧ YXLe (⟨4, 0⟩ : Vec2 ℚ) ⟨0, 3⟩ ∧
    ((⟨0, 0⟩ - ⟨4, 0⟩ : Vec2 ℚ)).isNull (1/100000) = false ∧ ((⟨0, 3⟩ - ⟨4, 0⟩ : Vec2 ℚ)).isNull (1/100000) = false ∧
    winding [⟨0, 0⟩, ⟨4, 0⟩, (⟨0, 3⟩ : Vec2 ℚ)] ⟨1, 1⟩ ≠ 0 ∧ winding [⟨0, 0⟩, ⟨4, 0⟩, (⟨0, 3⟩ : Vec2 ℚ)] ⟨2, 3/2⟩ = 0 := by
  refine ⟨Or.inr ⟨rfl, by norm_num⟩, Or.inl (by norm_num), ?_⟩
  decide +kernel

end Planar
