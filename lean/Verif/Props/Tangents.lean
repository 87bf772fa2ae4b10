import Verif.Lemmas.TangentSearch
import Verif.Props.Convex
/- C58: tangents to a polygon from a point. -/
set_option linter.unusedSectionVars false
namespace Planar
open Spec Polygon
variable {K : Type} [Field K] [LinearOrder K] [IsStrictOrderedRing K]

namespace Polygon

theorem rightTan_step (vs : List (Vec2 K)) (p : Vec2 K) (h2 : 2 ≤ vs.length) (lim : ℕ) (a b : ℤ) (ha : -1 ≤ a) (hab : a ≤ b)
    (hb : b ≤ vs.length - 1) (ha' : a ≤ vs.length - 2) :
    rightTanLoop vs p (lim + 1) a b =
      if (ptBelow p (atZ vs ((a + b) / 2 + 1)) (atZ vs ((a + b) / 2)) &&
          !ptAbove p (atZ vs ((a + b) / 2 - 1)) (atZ vs ((a + b) / 2))) then .ok ((a + b) / 2)
      else if ptAbove p (atZ vs (a + 1)) (atZ vs a) then
        if ptBelow p (atZ vs ((a + b) / 2 + 1)) (atZ vs ((a + b) / 2)) || ptAbove p (atZ vs a) (atZ vs ((a + b) / 2)) then
          rightTanLoop vs p lim a ((a + b) / 2)
        else rightTanLoop vs p lim ((a + b) / 2) b
      else
        if !ptBelow p (atZ vs ((a + b) / 2 + 1)) (atZ vs ((a + b) / 2)) || !ptBelow p (atZ vs a) (atZ vs ((a + b) / 2)) then
          rightTanLoop vs p lim ((a + b) / 2) b
        else rightTanLoop vs p lim a ((a + b) / 2) := by
  have e1 := pyGet_atZ vs ((a + b) / 2 + 1) (by omega) (by omega)
  have e2 := pyGet_atZ vs ((a + b) / 2) (by omega) (by omega)
  have e3 := pyGet_atZ vs ((a + b) / 2 - 1) (by omega) (by omega)
  have e4 := pyGet_atZ vs (a + 1) (by omega) (by omega)
  have e5 := pyGet_atZ vs a (by omega) (by omega)
  simp only [rightTanLoop, e1, e2, e3, e4, e5, bind, Except.bind, pure, Except.pure]

theorem leftTan_step (vs : List (Vec2 K)) (p : Vec2 K) (h2 : 2 ≤ vs.length) (lim : ℕ) (a b : ℤ) (ha : -1 ≤ a) (hab : a ≤ b)
    (hb : b ≤ vs.length - 1) (ha' : a ≤ vs.length - 2) :
    leftTanLoop vs p (lim + 1) a b =
      if (!ptBelow p (atZ vs ((a + b) / 2 + 1)) (atZ vs ((a + b) / 2)) &&
          ptAbove p (atZ vs ((a + b) / 2 - 1)) (atZ vs ((a + b) / 2))) then .ok ((a + b) / 2)
      else if ptBelow p (atZ vs (a + 1)) (atZ vs a) then
        if !ptBelow p (atZ vs ((a + b) / 2 + 1)) (atZ vs ((a + b) / 2)) || ptBelow p (atZ vs a) (atZ vs ((a + b) / 2)) then
          leftTanLoop vs p lim a ((a + b) / 2)
        else leftTanLoop vs p lim ((a + b) / 2) b
      else
        if ptBelow p (atZ vs ((a + b) / 2 + 1)) (atZ vs ((a + b) / 2)) || !ptAbove p (atZ vs a) (atZ vs ((a + b) / 2)) then
          leftTanLoop vs p lim ((a + b) / 2) b
        else leftTanLoop vs p lim a ((a + b) / 2) := by
  have e1 := pyGet_atZ vs ((a + b) / 2 + 1) (by omega) (by omega)
  have e2 := pyGet_atZ vs ((a + b) / 2) (by omega) (by omega)
  have e3 := pyGet_atZ vs ((a + b) / 2 - 1) (by omega) (by omega)
  have e4 := pyGet_atZ vs (a + 1) (by omega) (by omega)
  have e5 := pyGet_atZ vs a (by omega) (by omega)
  simp only [leftTanLoop, e1, e2, e3, e4, e5, bind, Except.bind, pure, Except.pure]

/-- The search reads no vertex out of range and ends with a valid index. -/
theorem rightLoop_total (vs : List (Vec2 K)) (p : Vec2 K) (h2 : 2 ≤ vs.length) (lim : ℕ) (a b : ℤ) (ha : -1 ≤ a) (hab : a ≤ b)
    (hb : b ≤ vs.length - 1) (ha' : a ≤ vs.length - 2) :
    ∃ c, rightTanLoop vs p lim a b = .ok c ∧ -1 ≤ c ∧ c ≤ vs.length - 2 := by
  induction lim generalizing a b with
  | zero => exact ⟨a, rfl, ha, ha'⟩
  | succ lim ih =>
    rw [rightTan_step vs p h2 lim a b ha hab hb ha']
    split_ifs
    · exact ⟨_, rfl, by omega, by omega⟩
    all_goals exact ih _ _ (by omega) (by omega) (by omega) (by omega)

theorem leftLoop_total (vs : List (Vec2 K)) (p : Vec2 K) (h2 : 2 ≤ vs.length) (lim : ℕ) (a b : ℤ) (ha : -1 ≤ a) (hab : a ≤ b)
    (hb : b ≤ vs.length - 1) (ha' : a ≤ vs.length - 2) :
    ∃ c, leftTanLoop vs p lim a b = .ok c ∧ -1 ≤ c ∧ c ≤ vs.length - 2 := by
  induction lim generalizing a b with
  | zero => exact ⟨a, rfl, ha, ha'⟩
  | succ lim ih =>
    rw [leftTan_step vs p h2 lim a b ha hab hb ha']
    split_ifs
    · exact ⟨_, rfl, by omega, by omega⟩
    all_goals exact ih _ _ (by omega) (by omega) (by omega) (by omega)

theorem rightTan_eq (vs : List (Vec2 K)) (p : Vec2 K) (h2 : 2 ≤ vs.length) :
    rightTan vs p = if (ptBelow p (atZ vs 0) (atZ vs (-1)) && !ptAbove p (atZ vs (-2)) (atZ vs (-1))) then .ok (-1)
      else rightTanLoop vs p vs.length (-1) (vs.length - 1) := by
  simp only [rightTan, pyGet_atZ vs 0 (by omega) (by omega), pyGet_atZ vs (-1) (by omega) (by omega),
    pyGet_atZ vs (-2) (by omega) (by omega), bind, Except.bind, pure, Except.pure]

theorem leftTan_eq (vs : List (Vec2 K)) (p : Vec2 K) (h2 : 2 ≤ vs.length) :
    leftTan vs p = if (!ptBelow p (atZ vs 0) (atZ vs (-1)) && ptAbove p (atZ vs (-2)) (atZ vs (-1))) then .ok (-1)
      else leftTanLoop vs p vs.length (-1) (vs.length - 1) := by
  simp only [leftTan, pyGet_atZ vs 0 (by omega) (by omega), pyGet_atZ vs (-1) (by omega) (by omega),
    pyGet_atZ vs (-2) (by omega) (by omega), bind, Except.bind, pure, Except.pure]

theorem rightTan_total (vs : List (Vec2 K)) (p : Vec2 K) (h2 : 2 ≤ vs.length) :
    ∃ c, rightTan vs p = .ok c ∧ -1 ≤ c ∧ c ≤ vs.length - 2 := by
  rw [rightTan_eq vs p h2]
  split_ifs
  · exact ⟨-1, rfl, by omega, by omega⟩
  · exact rightLoop_total vs p h2 _ _ _ (by omega) (by omega) (by omega) (by omega)

theorem leftTan_total (vs : List (Vec2 K)) (p : Vec2 K) (h2 : 2 ≤ vs.length) :
    ∃ c, leftTan vs p = .ok c ∧ -1 ≤ c ∧ c ≤ vs.length - 2 := by
  rw [leftTan_eq vs p h2]
  split_ifs
  · exact ⟨-1, rfl, by omega, by omega⟩
  · exact leftLoop_total vs p h2 _ _ _ (by omega) (by omega) (by omega) (by omega)

/-- The right search finds a low point. -/
theorem rightLoop_low {vs : List (Vec2 K)} {p : Vec2 K} (h3 : 3 ≤ vs.length) {f : ℤ → K}
    (hab : ∀ i j, ptAbove p (atZ vs i) (atZ vs j) = decide (f i < f j))
    (hbe : ∀ i j, ptBelow p (atZ vs i) (atZ vs j) = decide (f j < f i))
    (hper : ∀ i, f (i + vs.length) = f i) (hpl : Plateaus f) (htop : ∀ i, f i = f (i + 1) → ∃ j, f j < f i)
    (hu : Unimodal f vs.length)
    (lim : ℕ) (a b : ℤ) (ha : -1 ≤ a) (hb : b ≤ vs.length - 1) (hlim : b - a ≤ lim)
    (hA : ¬ Low f a) (ht : ∃ t, a < t ∧ t < b ∧ Low f t) : ∃ c, rightTanLoop vs p lim a b = .ok c ∧ Low f c := by
  induction lim generalizing a b with
  | zero => obtain ⟨t, t1, t2, -⟩ := ht; omega
  | succ lim ih =>
    have hlen : a < (a + b) / 2 ∧ (a + b) / 2 < b ∧ (a + b) / 2 + 1 < a + vs.length := by
      obtain ⟨t, t1, t2, -⟩ := ht; omega
    rw [rightTan_step vs p (by omega) lim a b ha (by omega) hb (by omega)]
    generalize (a + b) / 2 = c at *
    obtain ⟨c1, c2, c3⟩ := hlen
    have low' : f c < f (c + 1) → f c ≤ f (c - 1) → Low f c := by
      intro g1 g2
      refine ⟨g1, lt_of_le_of_ne g2 ?_⟩
      intro g
      have e : f (c - 1) = f (c - 1 + 1) := by rw [sub_add_cancel]; exact g.symm
      rcases hpl.ext _ e with q | q
      · exact absurd (q (c + 1)) (not_le.mpr (by rw [← g]; exact g1))
      · obtain ⟨j, hj⟩ := htop _ e
        exact absurd (q j) (not_le.mpr hj)
    by_cases hC : Low f c
    · refine ⟨c, ?_, hC⟩
      rw [if_pos]
      simp only [hab, hbe, Bool.and_eq_true, decide_eq_true_eq, Bool.not_eq_true', decide_eq_false_iff_not, not_lt]
      exact ⟨hC.1, hC.2.le⟩
    · have hstep := search_stepR hper hpl htop hu (by omega) c1 c2 c3 hA hC ht
      rw [if_neg (by
        simp only [hab, hbe, Bool.and_eq_true, decide_eq_true_eq, Bool.not_eq_true', decide_eq_false_iff_not, not_lt]
        rintro ⟨g1, g2⟩
        exact hC (low' g1 g2))]
      simp only [hab, hbe, Bool.or_eq_true, decide_eq_true_eq, Bool.not_eq_true', decide_eq_false_iff_not]
      split_ifs at hstep ⊢
      · exact ih a c ha (by omega) (by omega) hA hstep
      · exact ih c b (by omega) hb (by omega) hC hstep
      · exact ih c b (by omega) hb (by omega) hC hstep
      · exact ih a c ha (by omega) (by omega) hA hstep

/-- The left search finds a low point of the direction upside down. -/
theorem leftLoop_low {vs : List (Vec2 K)} {p : Vec2 K} (h2 : 2 ≤ vs.length) {f : ℤ → K}
    (hab : ∀ i j, ptAbove p (atZ vs i) (atZ vs j) = decide (f j < f i))
    (hbe : ∀ i j, ptBelow p (atZ vs i) (atZ vs j) = decide (f i < f j))
    (hper : ∀ i, f (i + vs.length) = f i) (hpl : Plateaus f) (hu : Unimodal f vs.length)
    (lim : ℕ) (a b : ℤ) (ha : -1 ≤ a) (hb : b ≤ vs.length - 1) (hlim : b - a ≤ lim)
    (hA : ¬ LowL f a) (ht : ∃ t, a < t ∧ t < b ∧ LowL f t) : ∃ c, leftTanLoop vs p lim a b = .ok c ∧ LowL f c := by
  induction lim generalizing a b with
  | zero => obtain ⟨t, t1, t2, -⟩ := ht; omega
  | succ lim ih =>
    have hlen : a < (a + b) / 2 ∧ (a + b) / 2 < b := by obtain ⟨t, t1, t2, -⟩ := ht; omega
    rw [leftTan_step vs p h2 lim a b ha (by omega) hb (by omega)]
    generalize (a + b) / 2 = c at *
    obtain ⟨c1, c2⟩ := hlen
    by_cases hC : LowL f c
    · refine ⟨c, ?_, hC⟩
      rw [if_pos]
      simp only [hab, hbe, Bool.and_eq_true, decide_eq_true_eq, Bool.not_eq_true', decide_eq_false_iff_not, not_lt]
      exact hC
    · have hstep := search_stepL hper hpl hu (by omega) c1 c2 hA hC ht
      rw [if_neg (by
        simp only [hab, hbe, Bool.and_eq_true, decide_eq_true_eq, Bool.not_eq_true', decide_eq_false_iff_not, not_lt]
        exact hC)]
      simp only [hab, hbe, Bool.or_eq_true, decide_eq_true_eq, Bool.not_eq_true', decide_eq_false_iff_not]
      split_ifs at hstep ⊢
      · exact ih a c ha (by omega) (by omega) hA hstep
      · exact ih c b (by omega) hb (by omega) hC hstep
      · exact ih c b (by omega) hb (by omega) hC hstep
      · exact ih a c ha (by omega) (by omega) hA hstep

/-- A point on the line of an edge of a convex polygon sees that edge at an extreme direction. -/
theorem edge_extreme {vs : List (Vec2 K)} {p : Vec2 K} (hc : OneSided vs) {e : Vec2 K × Vec2 K} (he : e ∈ edges vs)
    (hne : e.1 ≠ e.2) (h0 : side e.1 e.2 p = 0) : (∀ v ∈ vs, 0 ≤ turn p e.1 v) ∨ (∀ v ∈ vs, turn p e.1 v ≤ 0) := by
  obtain ⟨N, hN⟩ : ∃ N, N = (e.2.x - e.1.x) * (e.2.x - e.1.x) + (e.2.y - e.1.y) * (e.2.y - e.1.y) := ⟨_, rfl⟩
  have hN0 : 0 < N := by
    rcases (add_nonneg (mul_self_nonneg (e.2.x - e.1.x)) (mul_self_nonneg (e.2.y - e.1.y))).eq_or_lt with h | h
    · exfalso
      obtain ⟨h1, h2⟩ := (add_eq_zero_iff_of_nonneg (mul_self_nonneg _) (mul_self_nonneg _)).mp h.symm
      exact hne (Vec2.ext (by linarith [mul_self_eq_zero.mp h1]) (by linarith [mul_self_eq_zero.mp h2]))
    · rw [hN]; exact h
  -- `p = e.1 + m / N * (e.2 - e.1)`
  obtain ⟨m, hm⟩ : ∃ m, m = (p.x - e.1.x) * (e.2.x - e.1.x) + (p.y - e.1.y) * (e.2.y - e.1.y) := ⟨_, rfl⟩
  have key : ∀ v : Vec2 K, N * turn p e.1 v = -m * side e.1 e.2 v := by
    intro v
    simp only [side] at h0
    rw [hN, hm]
    simp only [turn, side]
    linear_combination ((e.2.x - e.1.x) * (v.x - p.x) + (e.2.y - e.1.y) * (v.y - p.y) +
      (e.2.x - e.1.x) * (p.x - e.1.x) + (e.2.y - e.1.y) * (p.y - e.1.y)) * h0
  have conv : ∀ v, (0 ≤ -m * side e.1 e.2 v → 0 ≤ turn p e.1 v) ∧ (-m * side e.1 e.2 v ≤ 0 → turn p e.1 v ≤ 0) := by
    intro v
    rw [← key]
    exact ⟨fun h => (mul_nonneg_iff_of_pos_left hN0).mp h, fun h => (mul_nonpos_iff_pos_imp_nonpos.mp h).1 hN0⟩
  rcases le_total 0 (-m) with g | g <;> rcases hc with h | h
  · left; intro v hv; exact (conv v).1 (mul_nonneg g (h e he v hv))
  · right; intro v hv; exact (conv v).2 (mul_nonpos_of_nonneg_of_nonpos g (h e he v hv))
  · right; intro v hv; exact (conv v).2 (mul_nonpos_of_nonpos_of_nonneg g (h e he v hv))
  · left; intro v hv; exact (conv v).1 (mul_nonneg_of_nonpos_of_nonpos g (h e he v hv))

/-- The search is right on convex polygons. -/
theorem fast_spec {vs : List (Vec2 K)} {p : Vec2 K} {F : Vec2 K → K} (h3 : 3 ≤ vs.length) (hc : Convex vs)
    (hd : ∀ e ∈ edges vs, e.1 ≠ e.2) (hF : ∀ u ∈ vs, ∀ v ∈ vs, 0 < turn p u v ↔ F u < F v)
    (htwo : ∀ e ∈ edges vs, ∀ f ∈ edges vs, e.2 = f.1 → side e.1 e.2 p = 0 → side f.1 f.2 p ≠ 0) :
    (∃ i, leftTan vs p = .ok i ∧ ∀ x ∈ vs, F x ≤ F (atZ vs i)) ∧
    ((∀ e ∈ edges vs, side e.1 e.2 p = 0 → ∃ v ∈ vs, turn p e.1 v < 0) →
      ∃ j, rightTan vs p = .ok j ∧ ∀ x ∈ vs, F (atZ vs j) ≤ F x) := by
  have h2 : 2 ≤ vs.length := by omega
  have mem : ∀ i, atZ vs i ∈ vs := fun i => atZ_mem (by omega) i
  have hn : (0 : ℤ) < vs.length := by omega
  have hab : ∀ i j, ptAbove p (atZ vs i) (atZ vs j) = decide (F (atZ vs i) < F (atZ vs j)) := by
    intro i j
    rw [ptAbove, decide_eq_decide, ← hF _ (mem i) _ (mem j)]
    simp only [turn, gt_iff_lt]
    rw [← sub_pos, ← sub_pos (b := 0)]
    ring_nf
  have hbe : ∀ i j, ptBelow p (atZ vs i) (atZ vs j) = decide (F (atZ vs j) < F (atZ vs i)) := by
    intro i j
    rw [ptBelow, decide_eq_decide, ← hF _ (mem j) _ (mem i)]
    simp only [turn]
    rw [← neg_pos]
    ring_nf
  have hle : ∀ u ∈ vs, ∀ v ∈ vs, turn p u v ≤ 0 ↔ F v ≤ F u := fun u hu v hv => by
    rw [← not_lt, hF u hu v hv, not_lt]
  have hge : ∀ u ∈ vs, ∀ v ∈ vs, 0 ≤ turn p u v ↔ F u ≤ F v := fun u hu v hv => by
    rw [← hle v hv u hu, turn_swap p u v, neg_nonpos]
  have hper : ∀ i, F (atZ vs (i + vs.length)) = F (atZ vs i) := by
    intro i; congr 1; apply atZ_congr; rw [Int.modEq_iff_dvd]; exact ⟨-1, by ring⟩
  have edge : ∀ i, (atZ vs i, atZ vs (i + 1)) ∈ edges vs := by
    intro i
    rw [edges_atZ vs h2, List.mem_map]
    obtain ⟨k, hk, e1, -⟩ := atZ_nat vs (by omega) (i + 1)
    refine ⟨k, by simpa using hk, ?_⟩
    rw [atZ_congr e1.symm, show atZ vs ((k : ℤ) - 1) = atZ vs i from
      atZ_congr (by have := e1.symm.sub_right 1; rwa [add_sub_cancel_right] at this)]
  have hzero : ∀ i, F (atZ vs i) = F (atZ vs (i + 1)) → side (atZ vs i) (atZ vs (i + 1)) p = 0 := by
    intro i h
    rw [← turn_eq_side']
    exact le_antisymm ((hle _ (mem _) _ (mem _)).mpr h.ge) ((hge _ (mem _) _ (mem _)).mpr h.le)
  have all : ∀ x ∈ vs, ∃ i, x = atZ vs i := by
    intro x hx
    obtain ⟨i, hi, rfl⟩ := List.getElem_of_mem hx
    exact ⟨i, (atZ_lt vs i hi).symm⟩
  have hpl : Plateaus (fun i => F (atZ vs i)) := by
    constructor
    · intro i h
      rcases edge_extreme hc.1 (edge i) (hd _ (edge i)) (hzero i h) with g | g
      · right; intro j; exact (hge _ (mem _) _ (mem _)).mp (g _ (mem j))
      · left; intro j; exact (hle _ (mem _) _ (mem _)).mp (g _ (mem j))
    · intro i h h'
      have e : i + 1 + 1 = i + 2 := by ring
      refine htwo _ (edge i) _ (edge (i + 1)) rfl (hzero i h) (hzero (i + 1) ?_)
      rw [e]; exact h'
  have hpl' : Plateaus (fun i => -F (atZ vs i)) := by
    constructor
    · intro i h
      simp only [neg_le_neg_iff]
      exact (hpl.ext i (neg_injective h)).symm
    · intro i h h'
      exact hpl.two i (neg_injective h) (neg_injective h')
  have hu := unimodal h2 hc hF
  have hu' : Unimodal (fun i => -F (atZ vs i)) vs.length := by
    intro i j k l g1 g2 g3 g4 q1 q2 q3 q4
    simp only [neg_lt_neg_iff] at q1 q2 q3 q4
    have : l ≠ i + vs.length := by
      rintro rfl
      rw [hper] at q4; exact lt_irrefl _ q4
    exact hu j k l (i + vs.length) g2 g3 (by omega) (by omega) q2 q3 (by simp only [hper]; exact q4) (by simp only [hper]; exact q1)
  have hper' : ∀ i, -F (atZ vs (i + vs.length)) = -F (atZ vs i) := fun i => by rw [hper]
  constructor
  · have L : ∃ j, leftTan vs p = .ok j ∧ LowL (fun i => -F (atZ vs i)) j := by
      rw [leftTan_eq vs p h2]
      by_cases hL : LowL (fun i => -F (atZ vs i)) (-1)
      · refine ⟨-1, ?_, hL⟩
        rw [if_pos]
        simp only [hab, hbe, Bool.and_eq_true, decide_eq_true_eq, Bool.not_eq_true', decide_eq_false_iff_not, not_lt]
        exact ⟨neg_le_neg_iff.mp hL.1, neg_lt_neg_iff.mp hL.2⟩
      · rw [if_neg]
        · exact leftLoop_low (f := fun i => -F (atZ vs i)) h2 (by simpa only [neg_lt_neg_iff] using hab)
            (by simpa only [neg_lt_neg_iff] using hbe) hper' hpl' hu' _ _ _ le_rfl le_rfl (by omega) hL
            (exists_lowL (by omega) hper' hpl' hL)
        · simp only [hab, hbe, Bool.and_eq_true, decide_eq_true_eq, Bool.not_eq_true', decide_eq_false_iff_not, not_lt]
          rintro ⟨g1, g2⟩
          exact hL ⟨neg_le_neg g1, neg_lt_neg g2⟩
    obtain ⟨i, i1, i2⟩ := L
    refine ⟨i, i1, fun x hx => ?_⟩
    obtain ⟨k, rfl⟩ := all x hx
    exact neg_le_neg_iff.mp (lowL_least hn hper' hpl' hu' i2 k)
  · intro hr
    have htop : ∀ i, F (atZ vs i) = F (atZ vs (i + 1)) → ∃ j, F (atZ vs j) < F (atZ vs i) := by
      intro i h
      obtain ⟨v, hv, hv'⟩ := hr _ (edge i) (hzero i h)
      obtain ⟨j, rfl⟩ := all v hv
      refine ⟨j, (hF _ (mem _) _ (mem _)).mp ?_⟩
      rw [turn_swap]; exact neg_pos.mpr hv'
    have low' : ∀ c, F (atZ vs c) < F (atZ vs (c + 1)) → F (atZ vs c) ≤ F (atZ vs (c - 1)) → Low (fun i => F (atZ vs i)) c := by
      intro c g1 g2
      refine ⟨g1, lt_of_le_of_ne g2 ?_⟩
      intro g
      have e : F (atZ vs (c - 1)) = F (atZ vs (c - 1 + 1)) := by rw [sub_add_cancel]; exact g.symm
      rcases hpl.ext (c - 1) e with q | q
      · exact absurd (q (c + 1)) (not_le.mpr (by simp only at g ⊢; rw [← g]; exact g1))
      · obtain ⟨j, hj⟩ := htop _ e
        exact absurd (q j) (not_le.mpr hj)
    have R : ∃ j, rightTan vs p = .ok j ∧ Low (fun i => F (atZ vs i)) j := by
      rw [rightTan_eq vs p h2]
      by_cases hL : Low (fun i => F (atZ vs i)) (-1)
      · refine ⟨-1, ?_, hL⟩
        rw [if_pos]
        simp only [hab, hbe, Bool.and_eq_true, decide_eq_true_eq, Bool.not_eq_true', decide_eq_false_iff_not, not_lt]
        exact ⟨hL.1, hL.2.le⟩
      · rw [if_neg]
        · exact rightLoop_low h3 hab hbe hper hpl htop hu _ _ _ le_rfl le_rfl (by omega) hL
            (exists_low (by omega) hper hpl htop hL)
        · simp only [hab, hbe, Bool.and_eq_true, decide_eq_true_eq, Bool.not_eq_true', decide_eq_false_iff_not, not_lt]
          rintro ⟨g1, g2⟩
          exact hL (low' _ g1 g2)
    obtain ⟨j, j1, j2⟩ := R
    refine ⟨j, j1, fun x hx => ?_⟩
    obtain ⟨k, rfl⟩ := all x hx
    exact low_least hn hper hu j2 k

/-! ### the duplicate test -/

theorem loop_count_le (ds : List (Vec2 K)) (ld : Vec2 K) (dir : Int) (dc : Nat) (sg : Int) (n : Nat) :
    (classifyLoop ds ld dir dc sg n).count ≤ n + ds.length := by
  induction ds generalizing ld dir dc sg n with
  | nil => simp [classifyLoop]
  | cons d ds ih =>
    have ih' : ∀ (ld : Vec2 K) (dir : Int) (dc : Nat) (sg : Int),
        (classifyLoop ds ld dir dc sg (n + 1)).count ≤ n + (ds.length + 1) := fun ld dir dc sg =>
      (ih ld dir dc sg (n + 1)).trans (by omega)
    simp only [classifyLoop, List.length_cons]
    repeat' split
    all_goals first | exact ih' _ _ _ _ | (show n + 1 ≤ n + (ds.length + 1); omega)

/-- Without duplicates (as the code counts them) neighbouring vertices are distinct. -/
theorem distinct_of_dv {vs : List (Vec2 K)} (h : dv vs = false) : ∀ e ∈ edges vs, e.1 ≠ e.2 := by
  simp only [dv, decide_eq_false_iff_not, not_lt, classifyRun, solid_map] at h
  have h1 := h.trans (loop_count_le _ _ _ _ _ _)
  rw [List.length_map, Nat.zero_add] at h1
  have h2 : (solid vs).length = (edges vs).length :=
    le_antisymm (List.length_filter_le _ _) (by rw [edges_length]; exact h1)
  intro e he
  have := List.length_filter_eq_length_iff.mp h2 e he
  exact (truthy_iff e).mp this

end Polygon

/-- `l` and `r` are the left and right tangent vertices of the polygon seen from `p`: no vertex is on the left of the
line from `p` through `l`, none is on the right of the line from `p` through `r`. -/
def LeftTangent (vs : List (Vec2 K)) (p l : Vec2 K) : Prop := l ∈ vs ∧ ∀ v ∈ vs, side p l v ≤ 0
/-- See `LeftTangent`. -/
def RightTangent (vs : List (Vec2 K)) (p r : Vec2 K) : Prop := r ∈ vs ∧ ∀ v ∈ vs, 0 ≤ side p r v

/-- **C58** for every polygon object (in any state, with any flags) with at least two vertices and every point (inside,
outside, on the boundary) `tangents_to_point` raises nothing, returns two vertices of the polygon, and leaves the
vertices alone. -/
theorem C58_vertices (s : Polygon K) (h2 : 2 ≤ s.verts.length) (p : Vec2 K) :
    ∃ l r, (s.tangentsToPoint p).1 = .ok (l, r) ∧ l ∈ s.verts ∧ r ∈ s.verts ∧ (s.tangentsToPoint p).2.verts = s.verts := by
  have slow : ∃ l r, ptTangents s.verts p = .ok (l, r) ∧ l ∈ s.verts ∧ r ∈ s.verts := by
    have m0 := atZ_mem (vs := s.verts) (by omega) 0
    have m1 := atZ_mem (vs := s.verts) (by omega) (-1)
    simp only [ptTangents, pyGet_atZ s.verts 0 (by omega) (by omega), pyGet_atZ s.verts (-1) (by omega) (by omega),
      pyGet_atZ s.verts (-2) (by omega) (by omega), bind, Except.bind, pure, Except.pure]
    have := loop_mem p s.verts (atZ s.verts (-1)) (turn p (atZ s.verts (-2)) (atZ s.verts (-1))) (atZ s.verts 0) (atZ s.verts 0)
    simp only [List.mem_cons] at this
    refine ⟨_, _, rfl, ?_, ?_⟩
    · rcases this.1 with h | h | h
      · rw [h]; exact m0
      · rw [h]; exact m1
      · exact h
    · rcases this.2 with h | h | h
      · rw [h]; exact m0
      · rw [h]; exact m1
      · exact h
  unfold tangentsToPoint
  simp only
  split_ifs with h1 h2'
  · have e := isConvex_verts s
    obtain ⟨i, i1, i2, i3⟩ := leftTan_total s.verts p h2
    obtain ⟨j, j1, j2, j3⟩ := rightTan_total s.verts p h2
    simp only [e, i1, j1, pyGet_atZ s.verts i (by omega) (by omega), pyGet_atZ s.verts j (by omega) (by omega), bind,
      Except.bind, pure, Except.pure]
    exact ⟨_, _, rfl, atZ_mem (by omega) i, atZ_mem (by omega) j, trivial⟩
  · have e := isConvex_verts s
    simp only [e]
    obtain ⟨l, r, h, hl, hr⟩ := slow
    exact ⟨l, r, h, hl, hr, trivial⟩
  · obtain ⟨l, r, h, hl, hr⟩ := slow
    exact ⟨l, r, h, hl, hr, rfl⟩

/-- The result on any polygon object whose convexity flag is true only for convex polygons and whose duplicate flag is
false only when neighbouring vertices are distinct. -/
theorem tangents_spec (s : Polygon K) (h3 : 3 ≤ s.verts.length) (p : Vec2 K) (hp : ¬ InHull s.verts p)
    (hflags : 20 < s.verts.length → s.isConvex.1 = true → s.isConvex.2.dupeVerts = some false →
      Convex s.verts ∧ ∀ e ∈ edges s.verts, e.1 ≠ e.2) :
    ∃ l r, (s.tangentsToPoint p).1 = .ok (l, r) ∧
      ((20 < s.verts.length → ∀ e ∈ edges s.verts, ∀ f ∈ edges s.verts, e.2 = f.1 → side e.1 e.2 p = 0 → side f.1 f.2 p ≠ 0) →
        LeftTangent s.verts p l ∧
        ((20 < s.verts.length → ∀ e ∈ edges s.verts, side e.1 e.2 p = 0 → ∃ v ∈ s.verts, side p e.1 v < 0) →
          RightTangent s.verts p r)) ∧
      (s.verts.length ≤ 20 → LeftTangent s.verts p l ∧ RightTangent s.verts p r) := by
  have hne : s.verts ≠ [] := by intro h; rw [h] at h3; simp at h3
  obtain ⟨F, hF⟩ := slope hne hp
  have hle : ∀ u ∈ s.verts, ∀ v ∈ s.verts, turn p u v ≤ 0 ↔ F v ≤ F u := fun u hu v hv => by
    rw [← not_lt, hF u hu v hv, not_lt]
  have hge : ∀ u ∈ s.verts, ∀ v ∈ s.verts, 0 ≤ turn p u v ↔ F u ≤ F v := fun u hu v hv => by
    rw [← hle v hv u hu, turn_swap p u v, neg_nonpos]
  have mkL : ∀ l ∈ s.verts, (∀ x ∈ s.verts, F x ≤ F l) → LeftTangent s.verts p l := fun l hl h =>
    ⟨hl, fun v hv => by rw [← turn_eq_side]; exact (hle l hl v hv).mpr (h v hv)⟩
  have mkR : ∀ r ∈ s.verts, (∀ x ∈ s.verts, F r ≤ F x) → RightTangent s.verts p r := fun r hr h =>
    ⟨hr, fun v hv => by rw [← turn_eq_side]; exact (hge r hr v hv).mpr (h v hv)⟩
  obtain ⟨l, r, hlr, hl, hr, -⟩ := C58_vertices s (by omega) p
  have slow : (s.tangentsToPoint p).1 = ptTangents s.verts p → LeftTangent s.verts p l ∧ RightTangent s.verts p r := by
    intro h
    obtain ⟨l', r', e, h'⟩ := slow_spec (by omega) hF
    rw [h, e] at hlr
    injection hlr with hlr
    injection hlr with h1 h2
    subst h1 h2
    exact ⟨mkL _ hl fun x hx => (h' x hx).2, mkR _ hr fun x hx => (h' x hx).1⟩
  refine ⟨l, r, hlr, ?_, ?_⟩
  · intro htwo
    by_cases hlen : 20 < s.verts.length
    · by_cases hfast : (s.isConvex.1 && !(s.isConvex.2.dupeVerts.getD true)) = true
      · have hcv : s.isConvex.1 = true := (Bool.and_eq_true_iff.mp hfast).1
        have hdu : s.isConvex.2.dupeVerts = some false := by
          have := (Bool.and_eq_true_iff.mp hfast).2
          rcases hb : s.isConvex.2.dupeVerts with _ | _ | _ <;> simp_all
        obtain ⟨hc, hd⟩ := hflags hlen hcv hdu
        have htt : (s.tangentsToPoint p).1 = (do
            let l ← leftTan s.verts p
            let lv ← pyGet s.verts l
            let r ← rightTan s.verts p
            let rv ← pyGet s.verts r
            return (lv, rv)) := by
          unfold tangentsToPoint
          simp only [gt_iff_lt, hlen, if_true, hfast, isConvex_verts]
        obtain ⟨⟨i, i1, i2⟩, hR⟩ := fast_spec h3 hc hd hF (htwo hlen)
        obtain ⟨i', i1', ib, ib'⟩ := leftTan_total s.verts p (by omega)
        obtain ⟨j', j1', jb, jb'⟩ := rightTan_total s.verts p (by omega)
        rw [i1] at i1'
        injection i1' with i1'
        subst i1'
        rw [hlr, i1, j1'] at htt
        simp only [pyGet_atZ s.verts i (by omega) (by omega), pyGet_atZ s.verts j' (by omega) (by omega), bind,
          Except.bind, pure, Except.pure] at htt
        injection htt with htt
        injection htt with hl' hr'
        refine ⟨mkL _ hl (by rw [hl']; exact i2), ?_⟩
        intro hrr
        obtain ⟨j, j1, j2⟩ := hR (fun e he h0 => by
          obtain ⟨v, hv, h⟩ := hrr hlen e he h0
          exact ⟨v, hv, by rw [turn_eq_side]; exact h⟩)
        rw [j1] at j1'
        injection j1' with j1'
        subst j1'
        exact mkR _ hr (by rw [hr']; exact j2)
      · obtain ⟨a, b⟩ := slow (by
          unfold tangentsToPoint
          simp only [gt_iff_lt, hlen, if_true, hfast, isConvex_verts, Bool.false_eq_true, if_false])
        exact ⟨a, fun _ => b⟩
    · obtain ⟨a, b⟩ := slow (by unfold tangentsToPoint; simp only [gt_iff_lt, hlen, if_false])
      exact ⟨a, fun _ => b⟩
  · intro hlen
    exact slow (by unfold tangentsToPoint; simp only [gt_iff_lt, not_lt.mpr hlen, if_false])

/-- The flags after any history. -/
theorem flags_after {eps : K} {vs : List (Vec2 K)} {s0 : Polygon K} (h : Polygon.new vs = .ok s0) (ops : List (PolyOp K)) :
    3 ≤ (s0.after eps ops).verts.length ∧ ((s0.after eps ops).isConvex.1 = true →
      (s0.after eps ops).isConvex.2.dupeVerts = some false →
      Convex (s0.after eps ops).verts ∧ ∀ e ∈ edges (s0.after eps ops).verts, e.1 ≠ e.2) := by
  have h3 : 3 ≤ vs.length := by
    by_contra hc
    rw [(C43_new vs none none).1 (by omega)] at h
    simp at h
  refine ⟨(isConvex_after (eps := eps) h ops).1, ?_⟩
  have h0 := h
  rw [C44_fresh_new eps vs h3] at h0
  injection h0 with h0
  intro hcv hdu
  obtain ⟨i1, i2, -⟩ := inv_after (inv_fromPoints eps vs) ops
  rw [h0] at i1 i2
  have hl := (isConvex_after (eps := eps) h ops).1
  obtain ⟨-, -, -, -, -, c6⟩ := inv_isConvex i1
  rw [c6] at hdu
  split_ifs at hdu with hcond
  · injection hdu with hdu
    have hd := distinct_of_dv hdu
    refine ⟨?_, hd⟩
    simp only [Bool.and_eq_true, decide_eq_true_eq] at hcond
    refine convex_of_cv (by omega) ?_ hcond.1.2
    obtain ⟨e, he, hev⟩ := edges_last (vs := (s0.after eps ops).verts) (by omega)
    have hee := hd e (List.mem_of_getLast? he)
    rw [← truthy_iff] at hee
    intro hc
    rw [hev, hc] at hee
    simp [Vec2.truthy] at hee

/-- **C58** after every history of reads and edits, a polygon with at most 20 vertices (convex or not, simple or not,
degenerate or not) and a point outside its convex hull: the results are the left and the right tangent vertices. -/
theorem C58_small (eps : K) (vs : List (Vec2 K)) (s0 : Polygon K) (h : Polygon.new vs = .ok s0) (ops : List (PolyOp K))
    (p : Vec2 K) (hlen : (s0.after eps ops).verts.length ≤ 20) (hp : ¬ InHull (s0.after eps ops).verts p) :
    ∃ l r, ((s0.after eps ops).tangentsToPoint p).1 = .ok (l, r) ∧ LeftTangent (s0.after eps ops).verts p l ∧
      RightTangent (s0.after eps ops).verts p r := by
  obtain ⟨h3, hf⟩ := flags_after (eps := eps) h ops
  obtain ⟨l, r, e, -, h2⟩ := tangents_spec _ h3 p hp fun _ => hf
  exact ⟨l, r, e, h2 hlen⟩

/-- **C58** the same for every number of vertices, for the left tangent when `p` is not on the lines of two
consecutive edges, and for the right tangent when moreover `p` is on the line of no edge that has all vertices on its left
as seen from `p`. (Partial: `C58_violated` shows that both conditions are needed.) -/
theorem C58_tangents_partial (eps : K) (vs : List (Vec2 K)) (s0 : Polygon K) (h : Polygon.new vs = .ok s0) (ops : List (PolyOp K))
    (p : Vec2 K) (hp : ¬ InHull (s0.after eps ops).verts p)
    (h1 : ∀ e ∈ edges (s0.after eps ops).verts, ∀ f ∈ edges (s0.after eps ops).verts, e.2 = f.1 →
      ¬ (side e.1 e.2 p = 0 ∧ side f.1 f.2 p = 0)) :
    ∃ l r, ((s0.after eps ops).tangentsToPoint p).1 = .ok (l, r) ∧ LeftTangent (s0.after eps ops).verts p l ∧
      ((∀ e ∈ edges (s0.after eps ops).verts, side e.1 e.2 p = 0 → ∃ v ∈ (s0.after eps ops).verts, side p e.1 v < 0) →
        RightTangent (s0.after eps ops).verts p r) := by
  obtain ⟨h3, hf⟩ := flags_after (eps := eps) h ops
  obtain ⟨l, r, e, h2, -⟩ := tangents_spec _ h3 p hp fun _ => hf
  obtain ⟨a, b⟩ := h2 fun _ e he f hf hef h0 hf0 => h1 e he f hf hef ⟨h0, hf0⟩
  exact ⟨l, r, e, a, fun hr => b fun _ => hr⟩

/-! ### examples -/

private instance : DecidableEq (Vec2 ℚ) := fun a b => decidable_of_iff (a.x = b.x ∧ a.y = b.y) Vec2.ext_iff.symm

/-- The result of `tangents_to_point` for a new polygon. -/
def tangentsOf (vs : List (Vec2 ℚ)) (p : Vec2 ℚ) : Option (Vec2 ℚ × Vec2 ℚ) :=
  ((Polygon.fromPoints vs).tangentsToPoint p).1.toOption

/-- 23 vertices of a parabola, starting at the last one. -/
def parabola23 : List (Vec2 ℚ) := ((List.range 23).map fun (i : ℕ) => (⟨i, i * i⟩ : Vec2 ℚ)).rotate 22

/-- A convex polygon with 16 of its 22 vertices on one line. -/
def flat22 : List (Vec2 ℚ) := (((List.range 16).map fun (i : ℕ) => (⟨i, 0⟩ : Vec2 ℚ)) ++
  (List.range 6).map fun (i : ℕ) => (⟨15 - i, (i + 1) * (16 - i)⟩ : Vec2 ℚ)).rotate 12

theorem outside_of {vs : List (Vec2 ℚ)} {p : Vec2 ℚ} (a b : ℚ) (h : ∀ v ∈ vs, a * (v.x - p.x) + b * (v.y - p.y) < 0) :
    ¬ InHull vs p := by
  intro hp
  have : a * (p.x - p.x) + b * (p.y - p.y) < 0 := by
    have gen : ∀ q, InHull vs q → a * (q.x - p.x) + b * (q.y - p.y) < 0 := by
      intro q hq
      induction hq with
      | vertex v hv => exact h v hv
      | between q r t _ _ h0 h1 ihq ihr =>
        simp only
        nlinarith [mul_nonneg (sub_nonneg.mpr h1) (neg_nonneg.mpr ihq.le), mul_nonneg h0 (neg_nonneg.mpr ihr.le)]
    exact gen p hp
  simp at this

/-- **C58** is violated by the binary search: for a strictly convex polygon of 23 vertices and an exterior point on the
line of one edge the right result is not a tangent vertex (vertex (3, 9) is on its right); and for a convex polygon with
many vertices on one line the left one is not, seen from a point of that line. -/
theorem C58_violated :
    (Convex parabola23 ∧ ¬ InHull parabola23 ⟨2, 2⟩ ∧ tangentsOf parabola23 ⟨2, 2⟩ = some (⟨0, 0⟩, ⟨8, 64⟩) ∧
      ¬ RightTangent parabola23 ⟨2, 2⟩ ⟨8, 64⟩) ∧
    (Convex flat22 ∧ ¬ InHull flat22 ⟨-5, 0⟩ ∧ tangentsOf flat22 ⟨-5, 0⟩ = some (⟨10, 0⟩, ⟨10, 0⟩) ∧
      ¬ LeftTangent flat22 ⟨-5, 0⟩ ⟨10, 0⟩) := by
  refine ⟨⟨?_, ?_, by decide +kernel, ?_⟩, ?_, ?_, by decide +kernel, ?_⟩
  · exact convex_of_cv (by decide +kernel) (by decide +kernel) (by decide +kernel)
  · exact outside_of 3 (-1) (by decide +kernel)
  · rintro ⟨-, h⟩
    have := h ⟨3, 9⟩ (by decide +kernel)
    norm_num [side] at this
  · exact convex_of_cv (by decide +kernel) (by decide +kernel) (by decide +kernel)
  · exact outside_of (-1) 0 (by decide +kernel)
  · rintro ⟨-, h⟩
    have := h ⟨10, 66⟩ (by decide +kernel)
    norm_num [side] at this

/-- The fast search applies, and the hypotheses of `C58_tangents_partial` hold, for the parabola seen from (3, -7). -/
example : ¬ InHull parabola23 ⟨3, -7⟩ ∧ (∀ e ∈ edges parabola23, side e.1 e.2 (⟨3, -7⟩ : Vec2 ℚ) ≠ 0) ∧
    tangentsOf parabola23 ⟨3, -7⟩ = some (⟨0, 0⟩, ⟨7, 49⟩) ∧
    (Polygon.fromPoints parabola23).isConvex.1 = true ∧
    (Polygon.fromPoints parabola23).isConvex.2.dupeVerts = some false :=
  ⟨outside_of 0 (-1) (by decide +kernel), by decide +kernel, by decide +kernel, by decide +kernel, by decide +kernel⟩

/-- `C58_small` on a concave polygon. -/
example : ¬ InHull [⟨0, 0⟩, ⟨4, 0⟩, ⟨1, 1⟩, (⟨0, 4⟩ : Vec2 ℚ)] ⟨5, 5⟩ ∧
    tangentsOf [⟨0, 0⟩, ⟨4, 0⟩, ⟨1, 1⟩, ⟨0, 4⟩] ⟨5, 5⟩ = some (⟨4, 0⟩, ⟨0, 4⟩) :=
  ⟨outside_of 1 1 (by decide +kernel), by decide +kernel⟩

end Planar
