import Verif.Lemmas.Cost
import Mathlib.Analysis.SpecialFunctions.Log.Base
/- The hull takes at most about `13 n log2 n` steps. No law of arithmetic on coordinates is used. -/
set_option linter.unusedSectionVars false
namespace Planar.Hull
open Counted
variable {K : Type} [Add K] [Sub K] [Mul K] [Div K] [Neg K] [Zero K] [One K] [BEq K] [LT K] [LE K]
  [DecidableLT K] [DecidableLE K]

/-- The binary logarithm of a count. -/
noncomputable def lg (n : Nat) : ℝ := Real.logb 2 n

theorem lg_nonneg (n : Nat) : 0 ≤ lg n := by
  unfold lg
  rcases Nat.eq_zero_or_pos n with h | h
  · simp [h]
  · exact Real.logb_nonneg (by norm_num) (by exact_mod_cast h)

theorem lg_mono {m n : Nat} (h0 : 0 < m) (h : m ≤ n) : lg m ≤ lg n := by
  unfold lg
  exact Real.logb_le_logb_of_le (by norm_num) (by exact_mod_cast h0) (by exact_mod_cast h)

theorem log2_le_lg (n : Nat) : (Nat.log2 n : ℝ) ≤ lg n := by
  rcases Nat.eq_zero_or_pos n with h | h
  · simp [h, lg, Nat.log2]
  · unfold lg
    rw [Real.le_logb_iff_rpow_le (by norm_num) (by exact_mod_cast h), Real.rpow_natCast]
    exact_mod_cast Nat.log2_self_le h.ne'

/-- Four fifths of the points: the logarithm is less by 4/13. -/
theorem lg_fifth {m n : Nat} (h0 : 0 < m) (h : 5 * m ≤ 4 * n) : lg m + 4 / 13 ≤ lg n := by
  unfold lg
  have m0 : (0 : ℝ) < m := by exact_mod_cast h0
  have hr : (5 : ℝ) * m ≤ 4 * n := by exact_mod_cast h
  have h1 : Real.logb 2 (5 / 4 * m) ≤ Real.logb 2 n := Real.logb_le_logb_of_le (by norm_num) (by positivity) (by linarith)
  rw [Real.logb_mul (by norm_num) m0.ne'] at h1
  have h2 : (4 : ℝ) / 13 ≤ Real.logb 2 (5 / 4) := by
    have : (4 : ℝ) ≤ 13 * Real.logb 2 (5 / 4) := by
      have e : 13 * Real.logb 2 (5 / 4) = Real.logb 2 ((5 / 4 : ℝ) ^ 13) := by
        rw [Real.logb_pow]; norm_num
      rw [e, Real.le_logb_iff_rpow_le (by norm_num) (by positivity)]
      norm_num
    linarith
  linarith

theorem filter_two {α : Type} (f g : α → Bool) (l : List α) :
    (l.filter f).length + (l.filter fun p => !(f p) && g p).length ≤ l.length := by
  induction l with
  | nil => simp
  | cons p ps ih =>
    simp only [List.filter_cons, List.length_cons]
    cases f p <;> cases g p <;> simp <;> omega

theorem splitPoints_length (pts : List (Vec2 K)) (P p0 p1 : Vec2 K) :
    (splitPoints pts P p0 p1).1.length + (splitPoints pts P p0 p1).2.length ≤ pts.length := by
  unfold splitPoints
  simp only
  split_ifs
  · simp
  · exact filter_two _ _ _

/-- The steps of one half of a partition of `n` points. -/
theorem half_steps {n m : Nat} (l : List (Vec2 K)) (a b x : Vec2 K) (hln : l.length ≤ n) (h5 : l.length ≤ m * 4 → 5 * l.length ≤ 4 * n)
    (ih : 1 < l.length → l.length ≤ m * 4 → ((partitionPointsC l a b).steps : ℝ) ≤ l.length * (13 * lg l.length + 9)) :
    (((if l.length ≤ 1 then tick 1 (ret (.ok (x :: l)))
        else if _h : l.length ≤ m * 4 ∧ 1 < l.length then partitionPointsC l a b
        else andThen (sortPointsC l a b) fun h => ret (.ok h) : Counted (Py (List (Vec2 K)))).steps : ℕ) : ℝ) ≤
      1 + l.length * (13 * lg n + 5) := by
  have hl0 : (0 : ℝ) ≤ l.length := Nat.cast_nonneg _
  have hlg := lg_nonneg n
  split_ifs with h1 h2
  · simp only [tick_steps, ret_steps]
    push_cast
    have := mul_nonneg hl0 (by linarith : 0 ≤ 13 * lg n + 5)
    linarith
  · have := ih h2.2 h2.1
    have hf := lg_fifth (m := l.length) (n := n) (by omega) (h5 h2.1)
    have := mul_le_mul_of_nonneg_left (show 13 * lg l.length + 9 ≤ 13 * lg n + 5 by linarith) hl0
    linarith
  · have hs := sortPointsC_steps l a b
    simp only [andThen_steps, ret_steps, Nat.add_zero]
    have hs' : ((sortPointsC l a b).steps : ℝ) ≤ l.length * (Nat.log2 l.length + 1) + 2 * l.length + 3 := by
      have : ((sortPointsC l a b).steps : ℝ) ≤ ((sortCharge l.length + 2 * l.length + 3 : ℕ) : ℝ) := by exact_mod_cast hs
      unfold sortCharge at this
      push_cast at this
      exact this
    have h3 := log2_le_lg l.length
    have h4 := lg_mono (m := l.length) (n := n) (by omega) hln
    have hl1 : (2 : ℝ) ≤ l.length := by exact_mod_cast (by omega : 2 ≤ l.length)
    have := mul_le_mul_of_nonneg_left (show (Nat.log2 l.length : ℝ) + 1 ≤ lg n + 1 by linarith) hl0
    have := mul_nonneg hl0 hlg
    nlinarith

theorem partitionPointsC_steps (pts : List (Vec2 K)) (p0 p1 : Vec2 K) :
    ((partitionPointsC pts p0 p1).steps : ℝ) ≤ pts.length * (13 * lg pts.length + 9) := by
  induction hn : pts.length using Nat.strong_induction_on generalizing pts p0 p1 with
  | _ n ih =>
    subst hn
    unfold partitionPointsC
    rw [tick_steps]
    cases hf : (pts.foldl (furthestStep p0 (p1.x - p0.x) (p1.y - p0.y)) (-1, none)).2 with
    | none =>
      simp only [ret_steps]
      push_cast
      have h0 : (0 : ℝ) ≤ pts.length := Nat.cast_nonneg _
      nlinarith [lg_nonneg pts.length, mul_nonneg h0 (lg_nonneg pts.length)]
    | some q =>
      simp only
      have hne : 1 ≤ pts.length := by
        cases pts with
        | nil => simp at hf
        | cons a l => simp
      have hsum := splitPoints_length pts q.copy p0 p1
      generalize splitPoints pts q.copy p0 p1 = lr at hsum ⊢
      have A := half_steps (n := pts.length) (m := pts.length - lr.1.length - lr.2.length) lr.1 p0 q.copy p0 (by omega) (by omega)
        (fun g1 g2 => ih _ (by omega) _ _ _ rfl)
      have B := half_steps (n := pts.length) (m := pts.length - lr.1.length - lr.2.length) lr.2 q.copy p1 q.copy (by omega) (by omega)
        (fun g1 g2 => ih _ (by omega) _ _ _ rfl)
      rw [andThen_steps]
      generalize (if lr.1.length ≤ 1 then tick 1 (ret (.ok (p0 :: lr.1)))
        else if _h : lr.1.length ≤ (pts.length - lr.1.length - lr.2.length) * 4 ∧ 1 < lr.1.length then partitionPointsC lr.1 p0 q.copy
        else andThen (sortPointsC lr.1 p0 q.copy) fun h => ret (.ok h) : Counted (Py (List (Vec2 K)))) = X at A ⊢
      have hs : (lr.1.length : ℝ) + lr.2.length ≤ pts.length := by exact_mod_cast hsum
      have h1 : (1 : ℝ) ≤ pts.length := by exact_mod_cast hne
      have hlg := lg_nonneg pts.length
      have hl1 : (0 : ℝ) ≤ lr.1.length := Nat.cast_nonneg _
      have hl2 : (0 : ℝ) ≤ lr.2.length := Nat.cast_nonneg _
      have key := mul_le_mul_of_nonneg_right hs (by linarith : 0 ≤ 13 * lg pts.length + 5)
      rcases X.val with e | v
      · simp only [ret_steps]
        push_cast
        have := mul_nonneg hl2 (by linarith : 0 ≤ 13 * lg pts.length + 5)
        linarith
      · simp only
        rw [andThen_steps]
        generalize (if lr.2.length ≤ 1 then tick 1 (ret (.ok (q.copy :: lr.2)))
          else if _h : lr.2.length ≤ (pts.length - lr.1.length - lr.2.length) * 4 ∧ 1 < lr.2.length then partitionPointsC lr.2 q.copy p1
          else andThen (sortPointsC lr.2 q.copy p1) fun h => ret (.ok h) : Counted (Py (List (Vec2 K)))) = Y at B ⊢
        rcases Y.val with e | w
        · simp only [ret_steps]; push_cast; linarith
        · simp only [ret_steps]; push_cast; linarith

theorem popStack_length (p : Vec2 K) (st : List (Vec2 K)) : (popStack p st).length ≤ st.length := by
  have := popStackC_steps p st; omega

theorem scan_length (ps : List (Vec2 K)) : ∀ st : List (Vec2 K),
    (ps.foldl (fun st p => p :: popStack p st) st).length ≤ ps.length + st.length := by
  induction ps with
  | nil => intro st; simp
  | cons p ps ih =>
    intro st
    have h1 := popStack_length p st
    have h2 := ih (p :: popStack p st)
    simp only [List.foldl_cons, List.length_cons] at h2 ⊢
    omega

theorem sortPoints_length (pts : List (Vec2 K)) (p0 p1 : Vec2 K) : (sortPoints pts p0 p1).length ≤ pts.length + 1 := by
  have h := scan_length (pySorted (fun a b => decide (lineOrder p0 p1 a < lineOrder p0 p1 b)) pts ++ [p1]) [p0]
  have hl := (pySorted_perm (fun a b => decide (lineOrder p0 p1 a < lineOrder p0 p1 b)) pts).length_eq
  simp only [List.length_append, hl, List.length_singleton] at h
  simp only [sortPoints, List.length_reverse, List.length_tail]
  omega

/-- The hull of one side has at most three times as many vertices as there are points. -/
theorem partitionPoints_length (pts : List (Vec2 K)) (p0 p1 : Vec2 K) (h : List (Vec2 K))
    (hh : partitionPoints pts p0 p1 = .ok h) : h.length ≤ 3 * pts.length := by
  induction hn : pts.length using Nat.strong_induction_on generalizing pts p0 p1 h with
  | _ n ih =>
    subst hn
    unfold partitionPoints at hh
    cases hf : (pts.foldl (furthestStep p0 (p1.x - p0.x) (p1.y - p0.y)) (-1, none)).2 with
    | none => rw [hf] at hh; simp at hh
    | some q =>
      rw [hf] at hh
      simp only at hh
      have hne : 1 ≤ pts.length := by
        cases pts with
        | nil => simp at hf
        | cons a l => simp
      have hsum := splitPoints_length pts q.copy p0 p1
      generalize splitPoints pts q.copy p0 p1 = lr at hsum hh
      have tail : ∀ h1 : List (Vec2 K), (if lr.2.length ≤ 1 then (do
              let h2 ← (Except.ok (q.copy :: lr.2) : Py (List (Vec2 K)))
              pure (h1 ++ h2))
            else
              if _h : lr.2.length ≤ (pts.length - lr.1.length - lr.2.length) * 4 ∧ 1 < lr.2.length then (do
                let h2 ← partitionPoints lr.2 q.copy p1
                pure (h1 ++ h2))
              else (do
                let h2 ← (Except.ok (sortPoints lr.2 q.copy p1) : Py (List (Vec2 K)))
                pure (h1 ++ h2)) : Py (List (Vec2 K))) = .ok h →
          h.length ≤ h1.length + lr.2.length + 1 ∨
            (h.length ≤ h1.length + 3 * lr.2.length ∧ 1 < lr.2.length ∧ lr.2.length < pts.length) := by
        intro h1 e
        split_ifs at e with c1 c2
        · simp only [bind, Except.bind, pure, Except.pure, Except.ok.injEq] at e
          left; rw [← e]; simp; omega
        · rcases hp : partitionPoints lr.2 q.copy p1 with er | h2
          · rw [hp] at e; simp [bind, Except.bind] at e
          · rw [hp] at e
            simp only [bind, Except.bind, pure, Except.pure, Except.ok.injEq] at e
            have := ih _ (by omega) _ _ _ _ hp rfl
            right; refine ⟨?_, c2.2, by omega⟩; rw [← e]; simp; omega
        · have := sortPoints_length lr.2 q.copy p1
          simp only [bind, Except.bind, pure, Except.pure, Except.ok.injEq] at e
          left; rw [← e]; simp; omega
      by_cases c1 : lr.1.length ≤ 1
      · rw [if_pos c1] at hh
        have := tail _ hh
        simp only [List.length_cons] at this
        omega
      · rw [if_neg c1] at hh
        by_cases c2 : lr.1.length ≤ (pts.length - lr.1.length - lr.2.length) * 4 ∧ 1 < lr.1.length
        · rw [dif_pos c2] at hh
          rcases hp : partitionPoints lr.1 p0 q.copy with er | h1
          · rw [hp] at hh; simp [bind, Except.bind] at hh
          · rw [hp] at hh
            have t := tail _ hh
            have := ih _ (by omega) _ _ _ _ hp rfl
            omega
        · rw [dif_neg c2] at hh
          have t := tail _ hh
          have := sortPoints_length lr.1 p0 q.copy
          omega

theorem eraseDups_length {α : Type} [BEq α] (n : Nat) : ∀ l : List α, l.length ≤ n → l.eraseDups.length ≤ l.length := by
  induction n with
  | zero => intro l h; simp only [Nat.le_zero, List.length_eq_zero_iff] at h; simp [h]
  | succ n ih =>
    intro l h
    cases l with
    | nil => simp
    | cons a l =>
      rw [List.eraseDups_cons]
      simp only [List.length_cons] at h ⊢
      have h1 := List.length_filter_le (fun b => !b == a) l
      have h2 := ih (l.filter fun b => !b == a) (by omega)
      omega

theorem pySet_length (order : List (Vec2 K) → List (Vec2 K)) (ho : ∀ l, (order l).Perm l) (ps d : List (Vec2 K)) :
    (pySet order ps d).length ≤ ps.length := by
  unfold pySet
  rw [(ho _).length_eq]
  refine (List.length_filter_le _ _).trans ?_
  exact eraseDups_length _ _ le_rfl

theorem quickHullC_steps (order : List (Vec2 K) → List (Vec2 K)) (ho : ∀ l, (order l).Perm l) (pts : List (Vec2 K)) :
    ((quickHullC order pts).steps : ℝ) ≤ pts.length * (13 * lg pts.length + 12) := by
  unfold quickHullC
  cases pts with
  | nil => simp
  | cons p ps =>
    simp only [tick_steps]
    generalize extremes p (p :: ps) = lr
    have hU := pySet_length order ho (List.filter (fun q => decide ((lr.2.x - lr.1.x) * (q.y - lr.1.y) -
      (q.x - lr.1.x) * (lr.2.y - lr.1.y) > 0)) (p :: ps)) [lr.1, lr.2]
    have hL := pySet_length order ho (List.filter (fun q => !decide ((lr.2.x - lr.1.x) * (q.y - lr.1.y) -
      (q.x - lr.1.x) * (lr.2.y - lr.1.y) > 0)) (p :: ps)) [lr.1, lr.2]
    have hs := List.length_eq_length_filter_add (l := p :: ps) (fun q => decide ((lr.2.x - lr.1.x) * (q.y - lr.1.y) -
      (q.x - lr.1.x) * (lr.2.y - lr.1.y) > 0))
    generalize pySet order (List.filter (fun q => decide ((lr.2.x - lr.1.x) * (q.y - lr.1.y) -
      (q.x - lr.1.x) * (lr.2.y - lr.1.y) > 0)) (p :: ps)) [lr.1, lr.2] = U at hU ⊢
    generalize pySet order (List.filter (fun q => !decide ((lr.2.x - lr.1.x) * (q.y - lr.1.y) -
      (q.x - lr.1.x) * (lr.2.y - lr.1.y) > 0)) (p :: ps)) [lr.1, lr.2] = L at hL ⊢
    generalize p :: ps = pts at *
    have hUL : U.length + L.length ≤ pts.length := by omega
    have half : ∀ (l : List (Vec2 K)) (a b x : Vec2 K), l.length ≤ pts.length →
        (((if l.isEmpty then ret (.ok [x]) else partitionPointsC l a b : Counted (Py (List (Vec2 K)))).steps : ℕ) : ℝ) ≤
          l.length * (13 * lg pts.length + 9) := by
      intro l a b x hl
      have h0 : (0 : ℝ) ≤ l.length := Nat.cast_nonneg _
      split_ifs with he
      · simp only [ret_steps, Nat.cast_zero]
        exact mul_nonneg h0 (by linarith [lg_nonneg pts.length])
      · refine (partitionPointsC_steps l a b).trans (mul_le_mul_of_nonneg_left ?_ h0)
        have : 0 < l.length := by
          rcases l with _ | ⟨a, l⟩
          · simp at he
          · simp
        linarith [lg_mono this hl]
    have A := half U lr.1 lr.2 lr.1 (by omega)
    have B := half L lr.2 lr.1 lr.2 (by omega)
    have hr : (U.length : ℝ) + L.length ≤ pts.length := by exact_mod_cast hUL
    have key := mul_le_mul_of_nonneg_right hr (by linarith [lg_nonneg pts.length] : 0 ≤ 13 * lg pts.length + 9)
    have hl2 : (0 : ℝ) ≤ L.length * (13 * lg pts.length + 9) :=
      mul_nonneg (Nat.cast_nonneg _) (by linarith [lg_nonneg pts.length])
    rw [andThen_steps]
    generalize (if U.isEmpty then ret (.ok [lr.1]) else partitionPointsC U lr.1 lr.2 : Counted (Py (List (Vec2 K)))) = X at A ⊢
    rcases X.val with e | v
    · simp only [ret_steps]; push_cast; linarith
    · simp only
      rw [andThen_steps]
      generalize (if L.isEmpty then ret (.ok [lr.2]) else partitionPointsC L lr.2 lr.1 : Counted (Py (List (Vec2 K)))) = Y at B ⊢
      rcases Y.val with e | w
      · simp only [ret_steps]; push_cast; linarith
      · simp only [ret_steps]; push_cast; linarith

end Planar.Hull
