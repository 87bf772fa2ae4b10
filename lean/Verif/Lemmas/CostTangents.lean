import Verif.Lemmas.Cost
import Verif.Props.Tangents
/- The number of passages of the two binary searches for tangent vertices. -/
set_option linter.unusedSectionVars false
namespace Planar
open Spec Polygon Counted
variable {K : Type} [Field K] [LinearOrder K] [IsStrictOrderedRing K]

namespace Polygon

theorem rightTanC_step (vs : List (Vec2 K)) (p : Vec2 K) (h2 : 2 ≤ vs.length) (lim : ℕ) (a b : ℤ) (ha : -1 ≤ a) (hab : a ≤ b)
    (hb : b ≤ vs.length - 1) (ha' : a ≤ vs.length - 2) :
    (rightTanLoopC vs p (lim + 1) a b).steps = 1 +
      if (ptBelow p (atZ vs ((a + b) / 2 + 1)) (atZ vs ((a + b) / 2)) &&
          !ptAbove p (atZ vs ((a + b) / 2 - 1)) (atZ vs ((a + b) / 2))) then 0
      else if ptAbove p (atZ vs (a + 1)) (atZ vs a) then
        if ptBelow p (atZ vs ((a + b) / 2 + 1)) (atZ vs ((a + b) / 2)) || ptAbove p (atZ vs a) (atZ vs ((a + b) / 2)) then
          (rightTanLoopC vs p lim a ((a + b) / 2)).steps
        else (rightTanLoopC vs p lim ((a + b) / 2) b).steps
      else
        if !ptBelow p (atZ vs ((a + b) / 2 + 1)) (atZ vs ((a + b) / 2)) || !ptBelow p (atZ vs a) (atZ vs ((a + b) / 2)) then
          (rightTanLoopC vs p lim ((a + b) / 2) b).steps
        else (rightTanLoopC vs p lim a ((a + b) / 2)).steps := by
  have e1 := pyGet_atZ vs ((a + b) / 2 + 1) (by omega) (by omega)
  have e2 := pyGet_atZ vs ((a + b) / 2) (by omega) (by omega)
  have e3 := pyGet_atZ vs ((a + b) / 2 - 1) (by omega) (by omega)
  have e4 := pyGet_atZ vs (a + 1) (by omega) (by omega)
  have e5 := pyGet_atZ vs a (by omega) (by omega)
  simp only [rightTanLoopC, e1, e2, e3, e4, e5, tick_steps, apply_ite Counted.steps, ret_steps]
  exact Nat.add_comm _ _

theorem leftTanC_step (vs : List (Vec2 K)) (p : Vec2 K) (h2 : 2 ≤ vs.length) (lim : ℕ) (a b : ℤ) (ha : -1 ≤ a) (hab : a ≤ b)
    (hb : b ≤ vs.length - 1) (ha' : a ≤ vs.length - 2) :
    (leftTanLoopC vs p (lim + 1) a b).steps = 1 +
      if (!ptBelow p (atZ vs ((a + b) / 2 + 1)) (atZ vs ((a + b) / 2)) &&
          ptAbove p (atZ vs ((a + b) / 2 - 1)) (atZ vs ((a + b) / 2))) then 0
      else if ptBelow p (atZ vs (a + 1)) (atZ vs a) then
        if !ptBelow p (atZ vs ((a + b) / 2 + 1)) (atZ vs ((a + b) / 2)) || ptBelow p (atZ vs a) (atZ vs ((a + b) / 2)) then
          (leftTanLoopC vs p lim a ((a + b) / 2)).steps
        else (leftTanLoopC vs p lim ((a + b) / 2) b).steps
      else
        if ptBelow p (atZ vs ((a + b) / 2 + 1)) (atZ vs ((a + b) / 2)) || !ptAbove p (atZ vs a) (atZ vs ((a + b) / 2)) then
          (leftTanLoopC vs p lim ((a + b) / 2) b).steps
        else (leftTanLoopC vs p lim a ((a + b) / 2)).steps := by
  have e1 := pyGet_atZ vs ((a + b) / 2 + 1) (by omega) (by omega)
  have e2 := pyGet_atZ vs ((a + b) / 2) (by omega) (by omega)
  have e3 := pyGet_atZ vs ((a + b) / 2 - 1) (by omega) (by omega)
  have e4 := pyGet_atZ vs (a + 1) (by omega) (by omega)
  have e5 := pyGet_atZ vs a (by omega) (by omega)
  simp only [leftTanLoopC, e1, e2, e3, e4, e5, tick_steps, apply_ite Counted.steps, ret_steps]
  exact Nat.add_comm _ _

/-- The right search halves the interval until it finds a low point. -/
theorem rightLoop_fast {vs : List (Vec2 K)} {p : Vec2 K} (h3 : 3 ≤ vs.length) {f : ℤ → K}
    (hab : ∀ i j, ptAbove p (atZ vs i) (atZ vs j) = decide (f i < f j))
    (hbe : ∀ i j, ptBelow p (atZ vs i) (atZ vs j) = decide (f j < f i))
    (hper : ∀ i, f (i + vs.length) = f i) (hpl : Plateaus f) (htop : ∀ i, f i = f (i + 1) → ∃ j, f j < f i)
    (hu : Unimodal f vs.length)
    (k lim : ℕ) (a b : ℤ) (ha : -1 ≤ a) (hb : b ≤ vs.length - 1) (hk : b - a ≤ 2 ^ k)
    (hA : ¬ Low f a) (ht : ∃ t, a < t ∧ t < b ∧ Low f t) : (rightTanLoopC vs p lim a b).steps ≤ k := by
  induction k generalizing a b lim with
  | zero => obtain ⟨t, t1, t2, -⟩ := ht; simp at hk; omega
  | succ k ih =>
    cases lim with
    | zero => simp [rightTanLoopC]
    | succ lim =>
    have hlen : a < (a + b) / 2 ∧ (a + b) / 2 < b ∧ (a + b) / 2 + 1 < a + vs.length := by
      obtain ⟨t, t1, t2, -⟩ := ht; omega
    rw [rightTanC_step vs p (by omega) lim a b ha (by omega) hb (by omega)]
    have e2 : (2 : ℤ) ^ (k + 1) = 2 * 2 ^ k := by ring
    rw [e2] at hk
    have k1 : (a + b) / 2 - a ≤ 2 ^ k := by omega
    have k2 : b - (a + b) / 2 ≤ 2 ^ k := by omega
    generalize (a + b) / 2 = c at *
    obtain ⟨c1, c2, c3⟩ := hlen
    by_cases hC : Low f c
    · rw [if_pos]
      · omega
      · simp only [hab, hbe, Bool.and_eq_true, decide_eq_true_eq, Bool.not_eq_true', decide_eq_false_iff_not, not_lt]
        exact ⟨hC.1, hC.2.le⟩
    · have hstep := search_stepR hper hpl htop hu (by omega) c1 c2 c3 hA hC ht
      by_cases hz : (ptBelow p (atZ vs (c + 1)) (atZ vs c) && !ptAbove p (atZ vs (c - 1)) (atZ vs c)) = true
      · rw [if_pos hz]; omega
      rw [if_neg hz]
      simp only [hab, hbe, Bool.or_eq_true, decide_eq_true_eq, Bool.not_eq_true', decide_eq_false_iff_not]
      split_ifs at hstep ⊢
      · have := ih lim a c ha (by omega) k1 hA hstep; omega
      · have := ih lim c b (by omega) hb k2 hC hstep; omega
      · have := ih lim c b (by omega) hb k2 hC hstep; omega
      · have := ih lim a c ha (by omega) k1 hA hstep; omega

/-- The left search halves the interval until it finds a low point. -/
theorem leftLoop_fast {vs : List (Vec2 K)} {p : Vec2 K} (h2 : 2 ≤ vs.length) {f : ℤ → K}
    (hab : ∀ i j, ptAbove p (atZ vs i) (atZ vs j) = decide (f j < f i))
    (hbe : ∀ i j, ptBelow p (atZ vs i) (atZ vs j) = decide (f i < f j))
    (hper : ∀ i, f (i + vs.length) = f i) (hpl : Plateaus f) (hu : Unimodal f vs.length)
    (k lim : ℕ) (a b : ℤ) (ha : -1 ≤ a) (hb : b ≤ vs.length - 1) (hk : b - a ≤ 2 ^ k)
    (hA : ¬ LowL f a) (ht : ∃ t, a < t ∧ t < b ∧ LowL f t) : (leftTanLoopC vs p lim a b).steps ≤ k := by
  induction k generalizing a b lim with
  | zero => obtain ⟨t, t1, t2, -⟩ := ht; simp at hk; omega
  | succ k ih =>
    cases lim with
    | zero => simp [leftTanLoopC]
    | succ lim =>
    have hlen : a < (a + b) / 2 ∧ (a + b) / 2 < b := by obtain ⟨t, t1, t2, -⟩ := ht; omega
    rw [leftTanC_step vs p h2 lim a b ha (by omega) hb (by omega)]
    have e2 : (2 : ℤ) ^ (k + 1) = 2 * 2 ^ k := by ring
    rw [e2] at hk
    have k1 : (a + b) / 2 - a ≤ 2 ^ k := by omega
    have k2 : b - (a + b) / 2 ≤ 2 ^ k := by omega
    generalize (a + b) / 2 = c at *
    obtain ⟨c1, c2⟩ := hlen
    by_cases hC : LowL f c
    · rw [if_pos]
      · omega
      · simp only [hab, hbe, Bool.and_eq_true, decide_eq_true_eq, Bool.not_eq_true', decide_eq_false_iff_not, not_lt]
        exact hC
    · have hstep := search_stepL hper hpl hu (by omega) c1 c2 hA hC ht
      by_cases hz : (!ptBelow p (atZ vs (c + 1)) (atZ vs c) && ptAbove p (atZ vs (c - 1)) (atZ vs c)) = true
      · rw [if_pos hz]; omega
      rw [if_neg hz]
      simp only [hab, hbe, Bool.or_eq_true, decide_eq_true_eq, Bool.not_eq_true', decide_eq_false_iff_not]
      split_ifs at hstep ⊢
      · have := ih lim a c ha (by omega) k1 hA hstep; omega
      · have := ih lim c b (by omega) hb k2 hC hstep; omega
      · have := ih lim c b (by omega) hb k2 hC hstep; omega
      · have := ih lim a c ha (by omega) k1 hA hstep; omega

theorem rightTanC_eq (vs : List (Vec2 K)) (p : Vec2 K) (h2 : 2 ≤ vs.length) :
    rightTanC vs p = if (ptBelow p (atZ vs 0) (atZ vs (-1)) && !ptAbove p (atZ vs (-2)) (atZ vs (-1))) then ret (.ok (-1))
      else rightTanLoopC vs p vs.length (-1) (vs.length - 1) := by
  simp only [rightTanC, pyGet_atZ vs 0 (by omega) (by omega), pyGet_atZ vs (-1) (by omega) (by omega),
    pyGet_atZ vs (-2) (by omega) (by omega)]

theorem leftTanC_eq (vs : List (Vec2 K)) (p : Vec2 K) (h2 : 2 ≤ vs.length) :
    leftTanC vs p = if (!ptBelow p (atZ vs 0) (atZ vs (-1)) && ptAbove p (atZ vs (-2)) (atZ vs (-1))) then ret (.ok (-1))
      else leftTanLoopC vs p vs.length (-1) (vs.length - 1) := by
  simp only [leftTanC, pyGet_atZ vs 0 (by omega) (by omega), pyGet_atZ vs (-1) (by omega) (by omega),
    pyGet_atZ vs (-2) (by omega) (by omega)]

/-- What an exterior point sees of a convex polygon. -/
structure Sight (vs : List (Vec2 K)) (p : Vec2 K) (F : Vec2 K → K) : Prop where
  hab : ∀ i j, ptAbove p (atZ vs i) (atZ vs j) = decide (F (atZ vs i) < F (atZ vs j))
  hbe : ∀ i j, ptBelow p (atZ vs i) (atZ vs j) = decide (F (atZ vs j) < F (atZ vs i))
  hper : ∀ i, F (atZ vs (i + vs.length)) = F (atZ vs i)
  ext : ∀ i, F (atZ vs i) = F (atZ vs (i + 1)) → (∀ j, F (atZ vs j) ≤ F (atZ vs i)) ∨ (∀ j, F (atZ vs i) ≤ F (atZ vs j))
  two : (∀ e ∈ edges vs, ∀ f ∈ edges vs, e.2 = f.1 → side e.1 e.2 p = 0 → side f.1 f.2 p ≠ 0) →
    ∀ i, F (atZ vs i) = F (atZ vs (i + 1)) → F (atZ vs (i + 1)) ≠ F (atZ vs (i + 2))
  top : (∀ e ∈ edges vs, side e.1 e.2 p = 0 → ∃ v ∈ vs, turn p e.1 v < 0) →
    ∀ i, F (atZ vs i) = F (atZ vs (i + 1)) → ∃ j, F (atZ vs j) < F (atZ vs i)
  uni : Unimodal (fun i => F (atZ vs i)) vs.length

theorem sight {vs : List (Vec2 K)} {p : Vec2 K} {F : Vec2 K → K} (h3 : 3 ≤ vs.length) (hc : Convex vs)
    (hd : ∀ e ∈ edges vs, e.1 ≠ e.2) (hF : ∀ u ∈ vs, ∀ v ∈ vs, 0 < turn p u v ↔ F u < F v) : Sight vs p F := by
  have h2 : 2 ≤ vs.length := by omega
  have mem : ∀ i, atZ vs i ∈ vs := fun i => atZ_mem (by omega) i
  have hle : ∀ u ∈ vs, ∀ v ∈ vs, turn p u v ≤ 0 ↔ F v ≤ F u := fun u hu v hv => by
    rw [← not_lt, hF u hu v hv, not_lt]
  have hge : ∀ u ∈ vs, ∀ v ∈ vs, 0 ≤ turn p u v ↔ F u ≤ F v := fun u hu v hv => by
    rw [← hle v hv u hu, turn_swap p u v, neg_nonpos]
  have edge : ∀ i, (atZ vs i, atZ vs (i + 1)) ∈ edges vs := by
    intro i
    rw [edges_atZ vs h2, List.mem_map]
    obtain ⟨k, hk, e1, -⟩ := atZ_nat vs (by omega) (i + 1)
    refine ⟨k, by simpa using hk, ?_⟩
    rw [atZ_congr e1.symm, show atZ vs ((k : ℤ) - 1) = atZ vs i from
      atZ_congr (by have := e1.symm.sub_right 1; rwa [add_sub_cancel_right] at this)]
  have hzero : ∀ i, F (atZ vs i) = F (atZ vs (i + 1)) → side (atZ vs i) (atZ vs (i + 1)) p = 0 := by
    intro i h
    rw [← turn_eq_side']
    exact le_antisymm ((hle _ (mem _) _ (mem _)).mpr h.ge) ((hge _ (mem _) _ (mem _)).mpr h.le)
  have all : ∀ x ∈ vs, ∃ i, x = atZ vs i := by
    intro x hx
    obtain ⟨i, hi, rfl⟩ := List.getElem_of_mem hx
    exact ⟨i, (atZ_lt vs i hi).symm⟩
  constructor
  · intro i j
    rw [ptAbove, decide_eq_decide, ← hF _ (mem i) _ (mem j)]
    simp only [turn, gt_iff_lt]
    rw [← sub_pos, ← sub_pos (b := 0)]
    ring_nf
  · intro i j
    rw [ptBelow, decide_eq_decide, ← hF _ (mem j) _ (mem i)]
    simp only [turn]
    rw [← neg_pos]
    ring_nf
  · intro i; congr 1; apply atZ_congr; rw [Int.modEq_iff_dvd]; exact ⟨-1, by ring⟩
  · intro i h
    rcases edge_extreme hc.1 (edge i) (hd _ (edge i)) (hzero i h) with g | g
    · right; intro j; exact (hge _ (mem _) _ (mem _)).mp (g _ (mem j))
    · left; intro j; exact (hle _ (mem _) _ (mem _)).mp (g _ (mem j))
  · intro htwo i h h'
    have e : i + 1 + 1 = i + 2 := by ring
    refine htwo _ (edge i) _ (edge (i + 1)) rfl (hzero i h) (hzero (i + 1) ?_)
    rw [e]; exact h'
  · intro hr i h
    obtain ⟨v, hv, hv'⟩ := hr _ (edge i) (hzero i h)
    obtain ⟨j, rfl⟩ := all v hv
    refine ⟨j, (hF _ (mem _) _ (mem _)).mp ?_⟩
    rw [turn_swap]; exact neg_pos.mpr hv'
  · exact unimodal h2 hc hF

/-- The two searches end after at most `k` passages if the polygon has at most `2^k` vertices. -/
theorem fast_steps {vs : List (Vec2 K)} {p : Vec2 K} {F : Vec2 K → K} (h3 : 3 ≤ vs.length) (hc : Convex vs)
    (hd : ∀ e ∈ edges vs, e.1 ≠ e.2) (hF : ∀ u ∈ vs, ∀ v ∈ vs, 0 < turn p u v ↔ F u < F v)
    (htwo : ∀ e ∈ edges vs, ∀ f ∈ edges vs, e.2 = f.1 → side e.1 e.2 p = 0 → side f.1 f.2 p ≠ 0)
    (k : ℕ) (hk : vs.length ≤ 2 ^ k) :
    (leftTanC vs p).steps ≤ k ∧
    ((∀ e ∈ edges vs, side e.1 e.2 p = 0 → ∃ v ∈ vs, turn p e.1 v < 0) → (rightTanC vs p).steps ≤ k) := by
  have S := sight h3 hc hd hF
  have h2 : 2 ≤ vs.length := by omega
  have hkz : ((vs.length : ℤ) - 1) - (-1) ≤ 2 ^ k := by
    have : ((vs.length : ℕ) : ℤ) ≤ ((2 ^ k : ℕ) : ℤ) := by exact_mod_cast hk
    push_cast at this
    linarith
  have hpl : Plateaus (fun i => F (atZ vs i)) := ⟨S.ext, S.two htwo⟩
  have hpl' : Plateaus (fun i => -F (atZ vs i)) := by
    constructor
    · intro i h
      simp only [neg_le_neg_iff]
      exact (hpl.ext i (neg_injective h)).symm
    · intro i h h'
      exact hpl.two i (neg_injective h) (neg_injective h')
  have hu' : Unimodal (fun i => -F (atZ vs i)) vs.length := by
    intro i j k l g1 g2 g3 g4 q1 q2 q3 q4
    simp only [neg_lt_neg_iff] at q1 q2 q3 q4
    have : l ≠ i + vs.length := by
      rintro rfl
      rw [S.hper] at q4; exact lt_irrefl _ q4
    exact S.uni j k l (i + vs.length) g2 g3 (by omega) (by omega) q2 q3 (by simp only [S.hper]; exact q4) (by simp only [S.hper]; exact q1)
  have hper' : ∀ i, -F (atZ vs (i + vs.length)) = -F (atZ vs i) := fun i => by rw [S.hper]
  constructor
  · rw [leftTanC_eq vs p h2]
    by_cases hL : LowL (fun i => -F (atZ vs i)) (-1)
    · rw [if_pos]
      · simp
      · simp only [S.hab, S.hbe, Bool.and_eq_true, decide_eq_true_eq, Bool.not_eq_true', decide_eq_false_iff_not, not_lt]
        exact ⟨neg_le_neg_iff.mp hL.1, neg_lt_neg_iff.mp hL.2⟩
    · split_ifs
      · simp
      · exact leftLoop_fast (f := fun i => -F (atZ vs i)) h2 (by simpa only [neg_lt_neg_iff] using S.hab)
          (by simpa only [neg_lt_neg_iff] using S.hbe) hper' hpl' hu' _ _ _ _ le_rfl le_rfl hkz hL
          (exists_lowL (by omega) hper' hpl' hL)
  · intro hr
    have htop := S.top hr
    rw [rightTanC_eq vs p h2]
    by_cases hL : Low (fun i => F (atZ vs i)) (-1)
    · rw [if_pos]
      · simp
      · simp only [S.hab, S.hbe, Bool.and_eq_true, decide_eq_true_eq, Bool.not_eq_true', decide_eq_false_iff_not, not_lt]
        exact ⟨hL.1, hL.2.le⟩
    · split_ifs
      · simp
      · exact rightLoop_fast h3 S.hab S.hbe S.hper hpl htop S.uni _ _ _ _ le_rfl le_rfl hkz hL
          (exists_low (by omega) S.hper hpl htop hL)

/-- Where the right search stops early, there is a vertex of least direction. -/
theorem accept_least {vs : List (Vec2 K)} {p : Vec2 K} {F : Vec2 K → K} (h3 : 3 ≤ vs.length) (S : Sight vs p F) {c : ℤ}
    (h1 : F (atZ vs c) < F (atZ vs (c + 1))) (h2 : F (atZ vs c) ≤ F (atZ vs (c - 1))) (j : ℤ) : F (atZ vs c) ≤ F (atZ vs j) := by
  rcases h2.eq_or_lt with h | h
  · have e : F (atZ vs (c - 1)) = F (atZ vs (c - 1 + 1)) := by rw [sub_add_cancel]; exact h.symm
    rcases S.ext (c - 1) e with q | q
    · exact absurd (q (c + 1)) (not_le.mpr (by rw [← h]; exact h1))
    · rw [h]; exact q j
  · exact low_least (f := fun i => F (atZ vs i)) (by omega) S.hper S.uni ⟨h1, h⟩ j

/-- If the last and the first vertex are the only ones of least direction, the right search never stops early once it
has left the last vertex. -/
theorem rightLoop_slow {vs : List (Vec2 K)} {p : Vec2 K} {F : Vec2 K → K} (h3 : 3 ≤ vs.length) (S : Sight vs p F)
    (hmin : ∀ i : ℤ, 0 < i → i < vs.length - 1 → ∃ j, F (atZ vs j) < F (atZ vs i))
    (lim : ℕ) (a b : ℤ) (ha : 0 < a) (hab : a ≤ b) (hb : b ≤ vs.length - 1) (ha' : a ≤ vs.length - 2) :
    (rightTanLoopC vs p lim a b).steps = lim := by
  induction lim generalizing a b with
  | zero => simp [rightTanLoopC]
  | succ lim ih =>
    rw [rightTanC_step vs p (by omega) lim a b (by omega) hab hb ha', if_neg]
    · split_ifs
      all_goals rw [ih _ _ (by omega) (by omega) (by omega) (by omega), Nat.add_comm]
    · simp only [S.hab, S.hbe, Bool.and_eq_true, decide_eq_true_eq, Bool.not_eq_true', decide_eq_false_iff_not, not_lt]
      rintro ⟨g1, g2⟩
      obtain ⟨j, hj⟩ := hmin ((a + b) / 2) (by omega) (by omega)
      exact absurd (accept_least h3 S g1 g2 j) (not_le.mpr hj)

/-- The right search takes as many passages as there are vertices when the last edge lies on a line through the point
and is seen at the far right. -/
theorem rightTanC_slow {vs : List (Vec2 K)} {p : Vec2 K} {F : Vec2 K → K} (h4 : 4 ≤ vs.length) (S : Sight vs p F)
    (heq : F (atZ vs (-1)) = F (atZ vs 0))
    (hmin : ∀ i : ℤ, 0 < i → i < vs.length - 1 → F (atZ vs 0) < F (atZ vs i)) : (rightTanC vs p).steps = vs.length := by
  rw [rightTanC_eq vs p (by omega), if_neg]
  · obtain ⟨lim, hl⟩ : ∃ lim, vs.length = lim + 1 := ⟨vs.length - 1, by omega⟩
    rw [show rightTanLoopC vs p vs.length (-1) (vs.length - 1) = rightTanLoopC vs p (lim + 1) (-1) (vs.length - 1) by rw [← hl]]
    rw [rightTanC_step vs p (by omega) lim _ _ le_rfl (by omega) le_rfl (by omega)]
    have hc : 0 < (-1 + ((vs.length : ℤ) - 1)) / 2 ∧ (-1 + ((vs.length : ℤ) - 1)) / 2 < vs.length - 1 := by omega
    generalize (-1 + ((vs.length : ℤ) - 1)) / 2 = c at *
    have hm := hmin c hc.1 hc.2
    rw [if_neg, if_neg, if_pos, rightLoop_slow (by omega) S (fun i g1 g2 => ⟨0, hmin i g1 g2⟩) lim c _ hc.1 (by omega) le_rfl (by omega)]
    · omega
    · simp only [S.hbe, Bool.or_eq_true, Bool.not_eq_true', decide_eq_false_iff_not, not_lt]
      right; rw [heq]; exact hm.le
    · simp only [S.hab, decide_eq_true_eq, not_lt]
      rw [show (-1 : ℤ) + 1 = 0 from rfl, heq]
    · simp only [S.hab, S.hbe, Bool.and_eq_true, decide_eq_true_eq, Bool.not_eq_true', decide_eq_false_iff_not, not_lt]
      rintro ⟨g1, g2⟩
      exact absurd (accept_least (by omega) S g1 g2 0) (not_le.mpr hm)
  · simp only [S.hab, S.hbe, Bool.and_eq_true, decide_eq_true_eq, heq]
    rintro ⟨g1, -⟩
    exact lt_irrefl _ g1

end Polygon
end Planar
