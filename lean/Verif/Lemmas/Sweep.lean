import Verif.Lemmas.Poly
import Verif.Lemmas.Sort
import Verif.Spec.Simple
import Mathlib.Data.Prod.Lex
import Mathlib.Tactic.Linarith
import Mathlib.Tactic.LinearCombination
import Mathlib.Tactic.FieldSimp
/- The sweep of `_check_is_simple`. -/
set_option linter.unusedSectionVars false
namespace Planar
open Spec Polygon
variable {K : Type} [Field K] [LinearOrder K] [IsStrictOrderedRing K]

/-! ### the crossing test of two segments -/

theorem signs_differ (p q : K) : ((decide (p > 0) != decide (q > 0)) || ((p == 0) != (q == 0))) = true ↔
    p * q ≤ 0 ∧ p ≠ q := by
  rcases lt_trichotomy p 0 with hp | rfl | hp <;> rcases lt_trichotomy q 0 with hq | rfl | hq
  · have h1 : ¬ p > 0 := hp.le.not_gt
    have h2 : ¬ q > 0 := hq.le.not_gt
    have := mul_pos_of_neg_of_neg hp hq
    simp [h1, h2, hp.ne, hq.ne, this.not_ge]
  · simp [hp.ne, hp.le.not_gt]
  · have h1 : ¬ p > 0 := hp.le.not_gt
    have := mul_neg_of_neg_of_pos hp hq
    simp [hp.le, hq, this.le, (hp.trans hq).ne]
  · simp [hq.ne, hq.ne']
  · simp
  · simp [hq.ne']
    exact hq.ne
  · have h1 : ¬ q > 0 := hq.le.not_gt
    have := mul_neg_of_pos_of_neg hp hq
    simp [hp, hq.le, this.le, (hq.trans hp).ne']
  · simp [hp]; exact hp.ne'
  · have := mul_pos hp hq
    simp [hp, hq, this.not_ge, hp.ne', hq.ne']

theorem ratio_range {p q : K} (h : p * q ≤ 0) (hne : p ≠ q) : 0 ≤ p / (p - q) ∧ p / (p - q) ≤ 1 := by
  have h' : p - q ≠ 0 := sub_ne_zero.mpr hne
  have h2 : 0 < (p - q) * (p - q) := mul_self_pos.mpr h'
  have e1 : p / (p - q) = p * (p - q) / ((p - q) * (p - q)) := by field_simp
  have e2 : 1 - p / (p - q) = (- q * (p - q)) / ((p - q) * (p - q)) := by field_simp; ring
  constructor
  · rw [e1]; apply div_nonneg _ h2.le; nlinarith [mul_self_nonneg p]
  · have : 0 ≤ 1 - p / (p - q) := by
      rw [e2]; apply div_nonneg _ h2.le; nlinarith [mul_self_nonneg q]
    linarith

theorem ratio_exists {p q : K} (h : p * q ≤ 0) (hne : p ≠ q) : ∃ u, 0 ≤ u ∧ u ≤ 1 ∧ u * (p - q) = p :=
  ⟨p / (p - q), (ratio_range h hne).1, (ratio_range h hne).2, div_mul_cancel₀ _ (sub_ne_zero.mpr hne)⟩

theorem product_nonpos {p q u : K} (h0 : 0 ≤ u) (h1 : u ≤ 1) (h : (1 - u) * p + u * q = 0) : p * q ≤ 0 := by
  rcases h0.eq_or_lt with rfl | hu
  · have : p = 0 := by linear_combination h
    simp [this]
  · have : u * (p * q) ≤ 0 := by
      have : u * (p * q) = - (1 - u) * (p * p) := by linear_combination p * h
      rw [this]; nlinarith [mul_self_nonneg p]
    by_contra hc
    push Not at hc
    nlinarith [mul_pos hu hc]

theorem segmentsIntersect_iff (a b c d : Vec2 K) : segmentsIntersect a b c d = true ↔
    NotParallel (a, b) (c, d) ∧ ∃ x, OnEdge (a, b) x ∧ OnEdge (c, d) x := by
  have hi : segmentsIntersect a b c d = true ↔
      (((b.x - a.x)*(c.y - a.y) - (c.x - a.x)*(b.y - a.y)) * ((b.x - a.x)*(d.y - a.y) - (d.x - a.x)*(b.y - a.y)) ≤ 0 ∧
        (b.x - a.x)*(c.y - a.y) - (c.x - a.x)*(b.y - a.y) ≠ (b.x - a.x)*(d.y - a.y) - (d.x - a.x)*(b.y - a.y)) ∧
      (((d.x - c.x)*(a.y - c.y) - (a.x - c.x)*(d.y - c.y)) * ((d.x - c.x)*(b.y - c.y) - (b.x - c.x)*(d.y - c.y)) ≤ 0 ∧
        (d.x - c.x)*(a.y - c.y) - (a.x - c.x)*(d.y - c.y) ≠ (d.x - c.x)*(b.y - c.y) - (b.x - c.x)*(d.y - c.y)) := by
    rw [← signs_differ, ← signs_differ]
    unfold segmentsIntersect
    by_cases h : ((decide ((b.x - a.x)*(c.y - a.y) - (c.x - a.x)*(b.y - a.y) > 0) !=
      decide ((b.x - a.x)*(d.y - a.y) - (d.x - a.x)*(b.y - a.y) > 0)) ||
      (((b.x - a.x)*(c.y - a.y) - (c.x - a.x)*(b.y - a.y) == 0) !=
      ((b.x - a.x)*(d.y - a.y) - (d.x - a.x)*(b.y - a.y) == 0))) = true
    · simp only [h, if_true, true_and]
    · simp only [h, if_false, false_and, Bool.false_eq_true]
  rw [hi]
  constructor
  · rintro ⟨⟨h1, n1⟩, h2, n2⟩
    have hD : NotParallel (a, b) (c, d) := by
      intro e
      apply n1
      simp only at e
      linear_combination -e
    refine ⟨hD, ?_⟩
    obtain ⟨u, u0, u1, eu⟩ := ratio_exists h1 n1
    obtain ⟨v, v0, v1, ev⟩ := ratio_exists h2 n2
    have n1' := sub_ne_zero.mpr n1
    refine ⟨⟨c.x + u * (d.x - c.x), c.y + u * (d.y - c.y)⟩, ⟨v, v0, v1, ?_, ?_⟩, ⟨u, u0, u1, rfl, rfl⟩⟩
    · apply mul_left_cancel₀ n1'
      simp only
      linear_combination (d.x - c.x) * eu + (b.x - a.x) * ev
    · apply mul_left_cancel₀ n1'
      simp only
      linear_combination (d.y - c.y) * eu + (b.y - a.y) * ev
  · rintro ⟨hD, x, ⟨t, t0, t1, tx, ty⟩, ⟨u, u0, u1, ux, uy⟩⟩
    have hD' : (b.x - a.x) * (d.y - c.y) ≠ (b.y - a.y) * (d.x - c.x) := hD
    simp only at tx ty ux uy
    have ex : a.x + t * (b.x - a.x) = c.x + u * (d.x - c.x) := by rw [← tx, ux]
    have ey : a.y + t * (b.y - a.y) = c.y + u * (d.y - c.y) := by rw [← ty, uy]
    refine ⟨⟨product_nonpos u0 u1 ?_, ?_⟩, product_nonpos t0 t1 ?_, ?_⟩
    · linear_combination (b.y - a.y) * ex - (b.x - a.x) * ey
    · intro e; apply hD'; linear_combination -e
    · linear_combination -(d.y - c.y) * ex + (d.x - c.x) * ey
    · intro e; apply hD'; linear_combination e

/-! ### the order of the events -/

/-- The events are ordered as five-tuples. -/
def key (p : SweepPt K) : K ×ₗ K ×ₗ K ×ₗ K ×ₗ ℕ :=
  toLex (p.start.x, toLex (p.start.y, toLex (p.stop.x, toLex (p.stop.y, p.index))))

theorem sweepLt_iff (a b : SweepPt K) : sweepLt a b = true ↔ key a < key b := by
  simp only [key, Prod.Lex.toLex_lt_toLex, sweepLt, vecLtThen, beq_iff_eq]
  by_cases h1 : a.start.x = b.start.x
  · by_cases h2 : a.start.y = b.start.y
    · by_cases h3 : a.stop.x = b.stop.x
      · by_cases h4 : a.stop.y = b.stop.y
        · simp [h1, h2, h3, h4]
        · simp [h1, h2, h3, h4]
      · simp [h1, h2, h3]
    · simp [h1, h2]
  · simp [h1]

theorem sweepLt_false (a b : SweepPt K) : sweepLt a b = false ↔ key b ≤ key a := by
  rw [← Bool.not_eq_true, sweepLt_iff, not_lt]

theorem sweep_sorted (l : List (SweepPt K)) : (pySorted sweepLt l).Pairwise fun a b => key a ≤ key b := by
  have := pySorted_pairwise (lt := sweepLt (K := K)) (by
    intro a b c h1 h2; rw [sweepLt_false] at *; exact h1.trans h2) (by
    intro a b; rw [sweepLt_false, sweepLt_false]; exact le_total _ _) l
  exact this.imp fun {a b} h => (sweepLt_false b a).mp h

/-! ### the loop -/

/-- The open segments after some events. -/
def opensAfter : List (SweepPt K) → List (SweepPt K) → List (SweepPt K)
  | [], opens => opens
  | p :: ps, opens =>
    if opens.any (fun o => o.index == p.index) then opensAfter ps (opens.filter fun o => o.index != p.index)
    else opensAfter ps (opens ++ [p])

/-- How many of the events belong to edge `i`. -/
abbrev cnt (i : Nat) (l : List (SweepPt K)) : Nat := l.countP fun o => o.index == i

theorem sweepLoop_append {L : Nat} (pre ps : List (SweepPt K)) : ∀ opens : List (SweepPt K),
    sweepLoop L (pre ++ ps) opens = true → sweepLoop L ps (opensAfter pre opens) = true := by
  induction pre with
  | nil => intro o h; exact h
  | cons p pre ih =>
    intro o h
    rw [List.cons_append, sweepLoop] at h
    rw [opensAfter]
    split at h
    · rename_i hc; rw [if_pos hc]; exact ih _ h
    · rename_i hc
      rw [if_neg hc]
      split at h
      · cases h
      · exact ih _ h

theorem sweepLoop_false {L : Nat} (ps : List (SweepPt K)) : ∀ opens : List (SweepPt K),
    sweepLoop L ps opens = false → ∃ pre p post, ps = pre ++ p :: post ∧
      cnt p.index (opensAfter pre opens) = 0 ∧ meetsOpen L p (opensAfter pre opens) = true := by
  induction ps with
  | nil => intro o h; cases h
  | cons p ps ih =>
    intro o h
    rw [sweepLoop] at h
    split at h
    · rename_i hc
      obtain ⟨pre, q, post, e, h1, h2⟩ := ih _ h
      refine ⟨p :: pre, q, post, by rw [e]; rfl, ?_, ?_⟩
      · rw [opensAfter, if_pos hc]; exact h1
      · rw [opensAfter, if_pos hc]; exact h2
    · rename_i hc
      split at h
      · rename_i hm
        refine ⟨[], p, ps, rfl, ?_, hm⟩
        rw [opensAfter, cnt, List.countP_eq_zero]
        intro q hq
        simp only [List.any_eq_true, not_exists, not_and] at hc
        exact hc q hq
      · obtain ⟨pre, q, post, e, h1, h2⟩ := ih _ h
        refine ⟨p :: pre, q, post, by rw [e]; rfl, ?_, ?_⟩
        · rw [opensAfter, if_neg hc]; exact h1
        · rw [opensAfter, if_neg hc]; exact h2

theorem opensAfter_sub (pre : List (SweepPt K)) : ∀ opens : List (SweepPt K), ∀ e ∈ opensAfter pre opens,
    e ∈ opens ∨ e ∈ pre := by
  induction pre with
  | nil => intro o e h; exact Or.inl h
  | cons p pre ih =>
    intro o e h
    rw [opensAfter] at h
    split at h
    · rcases ih _ e h with h | h
      · exact Or.inl (List.mem_filter.mp h).1
      · exact Or.inr (List.mem_cons_of_mem _ h)
    · rcases ih _ e h with h | h
      · rcases List.mem_append.mp h with h | h
        · exact Or.inl h
        · right; rw [List.mem_singleton.mp h]; exact List.mem_cons_self
      · exact Or.inr (List.mem_cons_of_mem _ h)

theorem cnt_pos {i : Nat} {l : List (SweepPt K)} : 0 < cnt i l ↔ ∃ e ∈ l, e.index = i := by
  rw [cnt, List.countP_pos_iff]; simp

theorem opensAfter_parity (pre : List (SweepPt K)) : ∀ opens : List (SweepPt K), (∀ i, cnt i opens ≤ 1) →
    ∀ i, cnt i (opensAfter pre opens) ≤ 1 ∧
      cnt i (opensAfter pre opens) % 2 = (cnt i opens + cnt i pre) % 2 := by
  induction pre with
  | nil => intro o h i; exact ⟨h i, by simp [opensAfter]⟩
  | cons p pre ih =>
    intro o h i
    rw [opensAfter]
    split
    · rename_i hc
      have hpos : 0 < cnt p.index o := by
        rw [cnt_pos]; simpa using hc
      have hf : ∀ j, cnt j (o.filter fun o => o.index != p.index) = if j = p.index then 0 else cnt j o := by
        intro j
        rw [cnt, List.countP_filter]
        by_cases hj : j = p.index
        · rw [if_pos hj, List.countP_eq_zero]
          intro e _
          simp only [hj, Bool.and_eq_true, beq_iff_eq, bne_iff_ne, not_and, not_not]
          exact fun h => h
        · rw [if_neg hj, cnt]
          apply List.countP_congr
          intro e _
          simp only [Bool.and_eq_true, beq_iff_eq, bne_iff_ne]
          constructor
          · exact fun h => h.1
          · intro h; exact ⟨h, by rw [h]; exact hj⟩
      have := ih _ (fun j => by rw [hf j]; split; exact Nat.zero_le _; exact h j) i
      refine ⟨this.1, ?_⟩
      rw [this.2, hf i]; simp only [cnt, List.countP_cons]
      by_cases hi : i = p.index
      · have h1 := h p.index
        subst hi
        simp only [if_true, beq_self_eq_true]
        have : List.countP (fun o => o.index == p.index) o = 1 := by change cnt p.index o = 1; omega
        rw [this]; omega
      · simp only [if_neg hi, beq_iff_eq, Ne.symm hi, if_false]; omega
    · rename_i hc
      have hz : cnt p.index o = 0 := by
        by_contra hne
        exact hc (by have := cnt_pos.mp (Nat.pos_of_ne_zero hne); simpa using this)
      have hf : ∀ j, cnt j (o ++ [p]) = cnt j o + if p.index = j then 1 else 0 := by
        intro j; simp [cnt, List.countP_append, List.countP_cons]
      have := ih (o ++ [p]) (fun j => by
        rw [hf j]
        by_cases hj : p.index = j
        · subst hj; rw [hz]; simp
        · rw [if_neg hj]; exact h j) i
      refine ⟨this.1, ?_⟩
      rw [this.2, hf i]; simp only [cnt, List.countP_cons]
      simp only [beq_iff_eq]; omega

/-! ### the events of a polygon -/

/-- The two events of edge `i`. -/
def ev1 (vs : List (Vec2 K)) (i : Nat) : SweepPt K := ⟨nth vs ((i : Int) - 1), nth vs i, i⟩
/-- The two events of edge `i`. -/
def ev2 (vs : List (Vec2 K)) (i : Nat) : SweepPt K := ⟨nth vs i, nth vs ((i : Int) - 1), i⟩
/-- The other event of an edge. -/
def rev (p : SweepPt K) : SweepPt K := ⟨p.stop, p.start, p.index⟩

theorem sweepPoints_perm (vs : List (Vec2 K)) : (sweepPoints vs).Perm
    ((List.range vs.length).map (ev1 vs) ++ (List.range vs.length).map (ev2 vs)) := pySorted_perm _ _

theorem mem_sweepPoints {vs : List (Vec2 K)} {p : SweepPt K} : p ∈ sweepPoints vs ↔
    p.index < vs.length ∧ (p = ev1 vs p.index ∨ p = ev2 vs p.index) := by
  rw [(sweepPoints_perm vs).mem_iff]
  simp only [List.mem_append, List.mem_map, List.mem_range]
  constructor
  · rintro (⟨i, hi, rfl⟩ | ⟨i, hi, rfl⟩)
    · exact ⟨hi, Or.inl rfl⟩
    · exact ⟨hi, Or.inr rfl⟩
  · rintro ⟨h, e | e⟩
    · exact Or.inl ⟨_, h, e.symm⟩
    · exact Or.inr ⟨_, h, e.symm⟩

theorem rev_mem {vs : List (Vec2 K)} {p : SweepPt K} (h : p ∈ sweepPoints vs) : rev p ∈ sweepPoints vs := by
  rw [mem_sweepPoints] at h ⊢
  refine ⟨h.1, ?_⟩
  rcases h.2 with e | e
  · right; conv_lhs => rw [e]
    rfl
  · left; conv_lhs => rw [e]
    rfl

theorem same_index {vs : List (Vec2 K)} {p q : SweepPt K} (hp : p ∈ sweepPoints vs) (hq : q ∈ sweepPoints vs)
    (h : q.index = p.index) : q = p ∨ q = rev p := by
  rw [mem_sweepPoints] at hp hq
  have r1 : ∀ i, rev (ev1 vs i) = ev2 vs i := fun _ => rfl
  have r2 : ∀ i, rev (ev2 vs i) = ev1 vs i := fun _ => rfl
  rw [h] at hq
  generalize p.index = i at *
  rcases hp.2 with e | e <;> rcases hq.2 with f | f <;> simp [e, f, r1, r2]

theorem cnt_sweepPoints (vs : List (Vec2 K)) {i : Nat} (h : i < vs.length) : cnt i (sweepPoints vs) = 2 := by
  have : ∀ f : Nat → SweepPt K, (∀ j, (f j).index = j) → cnt i ((List.range vs.length).map f) = 1 := by
    intro f hf
    rw [cnt, List.countP_map]
    have : ((fun o : SweepPt K => o.index == i) ∘ f) = fun j => j == i := by
      funext j; simp [hf]
    rw [this]
    change List.count i _ = 1
    exact List.count_eq_one_of_mem List.nodup_range (List.mem_range.mpr h)
  rw [cnt, (sweepPoints_perm vs).countP_eq, List.countP_append]
  have h1 := this (ev1 vs) (fun _ => rfl)
  have h2 := this (ev2 vs) (fun _ => rfl)
  simp only [cnt] at h1 h2
  omega

/-- The gap between the indices tested in the loop: the edges are not neighbours. -/
def GapOk (n i j : Nat) : Prop := n - 1 > ((i : Int) - (j : Int)).natAbs ∧ ((i : Int) - (j : Int)).natAbs > 1

theorem meetsOpen_iff (L : Nat) (p : SweepPt K) (opens : List (SweepPt K)) : meetsOpen L p opens = true ↔
    ∃ o ∈ opens, (L > ((p.index : Int) - (o.index : Int)).natAbs ∧ ((p.index : Int) - (o.index : Int)).natAbs > 1) ∧
      segmentsIntersect p.start p.stop o.start o.stop = true := by
  simp [meetsOpen]

theorem cnt_mem {i : Nat} {l : List (SweepPt K)} {e : SweepPt K} (h : e ∈ l) (hi : e.index = i) : 1 ≤ cnt i l :=
  cnt_pos.mpr ⟨e, h, hi⟩

/-- Both events of an edge in a part of the list. -/
theorem cnt_two {i : Nat} {l : List (SweepPt K)} {e f : SweepPt K} (he : e ∈ l) (hf : f ∈ l) (hne : e ≠ f)
    (h1 : e.index = i) (h2 : f.index = i) : 2 ≤ cnt i l := by
  obtain ⟨s, t, rfl⟩ := List.append_of_mem he
  have hf' : f ∈ s ∨ f ∈ t := by
    rcases List.mem_append.mp hf with h | h
    · exact Or.inl h
    · rcases List.mem_cons.mp h with h | h
      · exact absurd h.symm hne
      · exact Or.inr h
  simp only [cnt, List.countP_append, List.countP_cons, h1, beq_self_eq_true, if_true]
  rcases hf' with h | h
  · have := cnt_mem h h2; simp only [cnt] at this; omega
  · have := cnt_mem h h2; simp only [cnt] at this; omega

/-- The sweep reports a crossing exactly when an edge starts while a non-neighbour that it crosses is open. -/
theorem checkSimple_iff (vs : List (Vec2 K)) : checkSimple vs = false ↔
    ∃ o ∈ sweepPoints vs, ∃ p ∈ sweepPoints vs, GapOk vs.length p.index o.index ∧ key o ≤ key p ∧ key p ≤ key (rev o) ∧
      key p ≤ key (rev p) ∧ segmentsIntersect p.start p.stop o.start o.stop = true := by
  have hsort : (sweepPoints vs).Pairwise fun a b => key a ≤ key b := sweep_sorted _
  have h0 : ∀ i, cnt i ([] : List (SweepPt K)) ≤ 1 := by intro i; simp [cnt]
  constructor
  · intro h
    obtain ⟨pre, p, post, e, hp0, hm⟩ := sweepLoop_false _ _ h
    rw [meetsOpen_iff] at hm
    obtain ⟨o, ho, hgap, hX⟩ := hm
    have hopre : o ∈ pre := by
      rcases opensAfter_sub pre [] o ho with h | h
      · cases h
      · exact h
    have hidx : o.index ≠ p.index := by
      intro e; rw [e] at hgap; simp at hgap
    have mo : o ∈ sweepPoints vs := by rw [e]; simp [hopre]
    have mp : p ∈ sweepPoints vs := by rw [e]; simp
    have c1 := cnt_sweepPoints vs (mem_sweepPoints.mp mo).1
    have c2 := cnt_sweepPoints vs (mem_sweepPoints.mp mp).1
    obtain ⟨-, q1⟩ := opensAfter_parity pre [] h0 o.index
    obtain ⟨q2', q2⟩ := opensAfter_parity pre [] h0 p.index
    have q1' := (opensAfter_parity pre [] h0 o.index).1
    have q1'' := cnt_mem ho rfl
    have hz : ∀ i, cnt i ([] : List (SweepPt K)) = 0 := by intro i; simp [cnt]
    rw [hz] at q1 q2
    rw [e] at c1 c2
    simp only [cnt, List.countP_append, List.countP_cons, beq_self_eq_true, if_true, beq_iff_eq, hidx.symm, if_false] at *
    have hpre0 : List.countP (fun o => o.index == p.index) pre = 0 := by omega
    have hpre1 : List.countP (fun q => q.index == o.index) pre = 1 := by omega
    rw [e] at hsort
    rw [List.pairwise_append, List.pairwise_cons] at hsort
    obtain ⟨-, ⟨hpost, -⟩, hcross⟩ := hsort
    refine ⟨o, mo, p, mp, hgap, hcross o hopre p (by simp), ?_, ?_, hX⟩
    · have hm := rev_mem mo
      rw [e] at hm
      have hnd : o ≠ rev o := by
        intro he
        have : o.start = o.stop := congrArg SweepPt.start he
        rw [segmentsIntersect_iff] at hX
        apply hX.1
        simp only [this, sub_self, mul_zero]
      rcases List.mem_append.mp hm with h | h
      · have := cnt_two (i := o.index) hopre h hnd rfl rfl
        simp only [cnt] at this
        omega
      · rcases List.mem_cons.mp h with h | h
        · rw [h]
        · exact hpost _ h
    · have hm := rev_mem mp
      rw [e] at hm
      rcases List.mem_append.mp hm with h | h
      · have := cnt_mem (i := p.index) h rfl
        simp only [cnt] at this
        omega
      · rcases List.mem_cons.mp h with h | h
        · rw [h]
        · exact hpost _ h
  · rintro ⟨o, mo, p, mp, hgap, k1, k2, k3, hX⟩
    by_contra htrue
    rw [Bool.not_eq_false] at htrue
    have hidx : o.index ≠ p.index := by
      intro e; rw [GapOk, e] at hgap; simp at hgap
    have hinj : ∀ a b : SweepPt K, key a = key b → a = b := by
      intro a b h
      simp only [key, EmbeddingLike.apply_eq_iff_eq, Prod.mk.injEq] at h
      obtain ⟨h1, h2, h3, h4, h5⟩ := h
      cases a; cases b
      simp only [SweepPt.mk.injEq]
      exact ⟨Vec2.ext h1 h2, Vec2.ext h3 h4, h5⟩
    have hNP := ((segmentsIntersect_iff _ _ _ _).mp hX).1
    have hnd : p ≠ rev p := by
      intro he
      have : p.start = p.stop := congrArg SweepPt.start he
      apply hNP
      simp only [this, sub_self, zero_mul]
    have k1' : key o < key p := lt_of_le_of_ne k1 fun h => hidx (congrArg SweepPt.index (hinj _ _ h))
    have k2' : key p < key (rev o) := lt_of_le_of_ne k2 fun h => hidx (congrArg SweepPt.index (hinj _ _ h)).symm
    have k3' : key p < key (rev p) := lt_of_le_of_ne k3 fun h => hnd (hinj _ _ h)
    obtain ⟨pre, post, e⟩ := List.append_of_mem mp
    have htrue' : sweepLoop (vs.length - 1) (p :: post) (opensAfter pre []) = true := by
      apply sweepLoop_append
      rw [← e]; exact htrue
    have c1 := cnt_sweepPoints vs (mem_sweepPoints.mp mo).1
    have c2 := cnt_sweepPoints vs (mem_sweepPoints.mp mp).1
    have e1 := mo
    have e2 := rev_mem mo
    have e3 := rev_mem mp
    have hall : ∀ q ∈ pre, q ∈ sweepPoints vs := by intro q hq; rw [e]; simp [hq]
    rw [e] at hsort e1 e2 e3 c1 c2
    rw [List.pairwise_append, List.pairwise_cons] at hsort
    obtain ⟨-, ⟨hpost, -⟩, hcross⟩ := hsort
    have hpre : ∀ q ∈ pre, key q ≤ key p := fun q hq => hcross q hq p (by simp)
    have m1 : o ∈ pre := by
      rcases List.mem_append.mp e1 with h | h
      · exact h
      · rcases List.mem_cons.mp h with h | h
        · exact absurd (congrArg SweepPt.index h) hidx
        · exact absurd (hpost _ h) (not_le.mpr k1')
    have inpost : ∀ q, q ∈ pre ++ p :: post → key p < key q → q ∈ post := by
      intro q hq hk
      rcases List.mem_append.mp hq with h | h
      · exact absurd (hpre _ h) (not_le.mpr hk)
      · rcases List.mem_cons.mp h with h | h
        · rw [h] at hk; exact absurd hk (lt_irrefl _)
        · exact h
    have m2 := inpost _ e2 k2'
    have m3 := inpost _ e3 k3'
    have d1 := cnt_mem m1 rfl
    have d2 := cnt_mem (i := o.index) m2 rfl
    have d3 := cnt_mem (i := p.index) m3 rfl
    have hz : ∀ i, cnt i ([] : List (SweepPt K)) = 0 := by intro i; simp [cnt]
    have q1 := opensAfter_parity pre [] h0 o.index
    have q2 := opensAfter_parity pre [] h0 p.index
    rw [hz] at q1 q2
    have hop : 0 < cnt o.index (opensAfter pre []) := by
      simp only [cnt, List.countP_append, List.countP_cons, beq_self_eq_true, if_true, beq_iff_eq, hidx.symm, if_false] at *
      omega
    have hopen : o ∈ opensAfter pre [] := by
      obtain ⟨o', ho', hi⟩ := cnt_pos.mp hop
      have hp' : o' ∈ pre := by
        rcases opensAfter_sub pre [] o' ho' with h | h
        · cases h
        · exact h
      rcases same_index mo (hall _ hp') hi with h | h
      · rw [← h]; exact ho'
      · rw [h] at hp'
        exact absurd (hpre _ hp') (not_le.mpr k2')
    have hnp : cnt p.index (opensAfter pre []) = 0 := by
      simp only [cnt, List.countP_append, List.countP_cons, beq_self_eq_true, if_true, beq_iff_eq, hidx.symm, if_false] at *
      omega
    have hany : ¬ (opensAfter pre []).any (fun o => o.index == p.index) = true := by
      intro h
      rw [List.any_eq_true] at h
      obtain ⟨q, hq, hi⟩ := h
      have := cnt_mem hq (beq_iff_eq.mp hi)
      omega
    have hmeet : meetsOpen (vs.length - 1) p (opensAfter pre []) = true := by
      rw [meetsOpen_iff]
      exact ⟨o, hopen, hgap, hX⟩
    rw [sweepLoop, if_neg hany, if_pos hmeet] at htrue'
    cases htrue'

end Planar
