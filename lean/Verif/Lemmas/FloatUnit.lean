import Verif.Lemmas.StdModel
import Verif.Lemmas.FloatError
import Verif.Spec.DoubleSqrt
import Verif.Model.Line
import Verif.Lemmas.Rounded
/- Lengths, unit vectors and projections in double precision. -/
set_option linter.unusedSectionVars false
namespace Planar
open Spec

/-- The relative rounding error of double precision, as a real number. -/
noncomputable def uR : ℝ := 1 / 2 ^ 53
/-- The absolute rounding error near zero. -/
noncomputable def ηR : ℝ := 1 / 2 ^ 1075

theorem uR_pos : 0 < uR := by unfold uR; positivity
theorem uR_small : uR ≤ 1 / 1000 := by norm_num [uR]
theorem ηR_pos : 0 ≤ ηR := by unfold ηR; positivity

theorem pow_lt_real {m n : ℕ} (h : m < n) : (2 : ℝ) ^ m < 2 ^ n := pow_lt_pow_right₀ (by norm_num) h
theorem pow_le_real {m n : ℕ} (h : m ≤ n) : (2 : ℝ) ^ m ≤ 2 ^ n := pow_le_pow_right₀ (by norm_num) h

theorem inv_pow_split {m n : ℕ} : 1 / (2 : ℝ) ^ (m + n) = 1 / 2 ^ m * (1 / 2 ^ n) := by rw [pow_add, one_div_mul_one_div]
theorem inv_pow_le {m n : ℕ} (h : m ≤ n) : 1 / (2 : ℝ) ^ n ≤ 1 / 2 ^ m :=
  one_div_le_one_div_of_le (by positivity) (pow_le_real h)

theorem ηR_small : 1000 * ηR ≤ uR := by
  have e : ηR = 1 / 2 ^ 1022 * uR := inv_pow_split (m := 1022) (n := 53)
  have h : 1000 * (1 / (2 : ℝ) ^ 1022) ≤ 1 := by
    have := inv_pow_le (show 10 ≤ 1022 by norm_num)
    calc 1000 * (1 / (2 : ℝ) ^ 1022) ≤ 1000 * (1 / 2 ^ 10) := mul_le_mul_of_nonneg_left this (by norm_num)
      _ ≤ 1 := by norm_num
  rw [e, ← mul_assoc]
  exact mul_le_of_le_one_left uR_pos.le h

/-- One rounding: infinite, or with a small error. -/
theorem rnd_dich (x : ℚ) : |double.rnd x| = 2 ^ 5000 ∨
    (|double.rnd x| < 2 ^ 1024 ∧ |((double.rnd x : ℚ) : ℝ) - x| ≤ uR * |(x : ℝ)| + ηR) := by
  have hp : (0 : ℚ) < 2 ^ 5000 := by positivity
  rw [double_rnd]
  by_cases h1 : (2 : ℚ) ^ 1024 ≤ roundMin 53 (-1074) x
  · left
    have e : saturate ((2 : ℚ) ^ 1024) (2 ^ 5000) (roundMin 53 (-1074) x) = 2 ^ 5000 := if_pos h1
    rw [e, abs_of_pos hp]
  · by_cases h2 : roundMin 53 (-1074) x ≤ -(2 : ℚ) ^ 1024
    · left
      have e : saturate ((2 : ℚ) ^ 1024) (2 ^ 5000) (roundMin 53 (-1074) x) = -2 ^ 5000 := by
        unfold saturate; rw [if_neg h1, if_pos h2]
      rw [e, abs_neg, abs_of_pos hp]
    · right
      have hlt : |roundMin 53 (-1074) x| < 2 ^ 1024 := abs_lt.mpr ⟨not_le.mp h2, not_le.mp h1⟩
      rw [saturate_of_lt hlt]
      refine ⟨hlt, ?_⟩
      have e1 : (2 : ℚ) ^ (-((53 : ℕ) : ℤ)) = uRel := by norm_num
      have e2 : (2 : ℚ) ^ ((-1074 : ℤ) - 1) = uAbs := by norm_num
      have h0 : (0 : ℚ) ≤ uRel * |x| := by positivity
      have h0' : (0 : ℚ) ≤ uAbs := by positivity
      have : |roundMin 53 (-1074) x - x| ≤ uRel * |x| + uAbs := by
        rcases roundMin_err 53 (-1074) x with h1 | ⟨-, h1, -⟩
        · rw [e1] at h1; linarith
        · rw [e2] at h1; linarith
      have hc : ((|roundMin 53 (-1074) x - x| : ℚ) : ℝ) ≤ ((uRel * |x| + uAbs : ℚ) : ℝ) := Rat.cast_le.mpr this
      push_cast at hc
      exact hc

theorem rnd_ok {x : ℚ} (h : |(x : ℝ)| ≤ 2 ^ 1023) : |((double.rnd x : ℚ) : ℝ) - x| ≤ uR * |(x : ℝ)| + ηR := by
  have h' : |x| ≤ 2 ^ 1023 := by
    have : ((|x| : ℚ) : ℝ) ≤ ((2 ^ 1023 : ℚ) : ℝ) := by push_cast; exact h
    exact Rat.cast_le.mp this
  have hc : ((|double.rnd x - x| : ℚ) : ℝ) ≤ ((uRel * |x| + uAbs : ℚ) : ℝ) := Rat.cast_le.mpr (double_rnd_err h')
  push_cast at hc
  exact hc

theorem add_ok (a b : Double) (h : |a.real + b.real| ≤ 2 ^ 1023) :
    |(a + b).real - (a.real + b.real)| ≤ uR * |a.real + b.real| + ηR := by
  have := rnd_ok (x := a.val + b.val) (by push_cast; exact h)
  push_cast at this; exact this

theorem mul_ok (a b : Double) (h : |a.real * b.real| ≤ 2 ^ 1023) :
    |(a * b).real - a.real * b.real| ≤ uR * |a.real * b.real| + ηR := by
  have := rnd_ok (x := a.val * b.val) (by push_cast; exact h)
  push_cast at this; exact this

theorem div_ok (a b : Double) (h : |a.real / b.real| ≤ 2 ^ 1023) :
    |(a / b).real - a.real / b.real| ≤ uR * |a.real / b.real| + ηR := by
  have := rnd_ok (x := a.val / b.val) (by push_cast; exact h)
  push_cast at this; exact this

theorem sub_ok (a b : Double) (h : |a.real - b.real| ≤ 2 ^ 1023) :
    |(a - b).real - (a.real - b.real)| ≤ uR * |a.real - b.real| := by
  have h' : |a.val - b.val| ≤ 2 ^ 1023 := by
    have : ((|a.val - b.val| : ℚ) : ℝ) ≤ ((2 ^ 1023 : ℚ) : ℝ) := by push_cast; exact h
    exact Rat.cast_le.mp this
  have hc : ((|(a - b).val - (a.val - b.val)| : ℚ) : ℝ) ≤ ((uRel * |a.val - b.val| : ℚ) : ℝ) :=
    Rat.cast_le.mpr (double_sub_err a b h')
  push_cast at hc
  exact hc

theorem real_le {a b : Double} : a.real ≤ b.real ↔ a ≤ b := by
  rw [Fl.le_iff]; exact Rat.cast_le
theorem real_lt {a b : Double} : a.real < b.real ↔ a < b := by
  rw [Fl.lt_iff]; exact Rat.cast_lt
theorem real_zero : (0 : Double).real = 0 := by simp [Fl.real, Fl.zero_val]
theorem real_one : (1 : Double).real = 1 := by simp [Fl.real, Fl.one_val]
theorem real_neg (a : Double) : (-a).real = -a.real := by simp [Fl.real, Fl.neg_val]
theorem real_inj {a b : Double} (h : a.real = b.real) : a = b := Fl.ext (Rat.cast_injective h)

theorem finite_of {a : Double} {M : ℝ} (hM : M < 2 ^ 1024) (h : |a.real| ≤ M) : a.Finite := by
  have : ((|a.val| : ℚ) : ℝ) < ((2 ^ 1024 : ℚ) : ℝ) := by push_cast; exact h.trans_lt hM
  exact Rat.cast_lt.mp this

theorem pyabs_real (a : Double) : (pyabs a).real = |a.real| := by
  unfold pyabs
  split_ifs with h
  · rw [real_neg, abs_of_neg (by rw [← real_zero]; exact real_lt.mpr h)]
  · rw [abs_of_nonneg (by rw [← real_zero]; exact real_le.mpr (not_lt.mp h))]

theorem slack {w z T : ℝ} (h : |w - z| ≤ uR * |z| + ηR) (hz : |z| ≤ T) (hT : 1 ≤ T) : |w| ≤ 2 * T := by
  have h2 := abs_sub_abs_le_abs_sub w z
  have h3 : uR * |z| ≤ 1 / 1000 * |z| := mul_le_mul_of_nonneg_right uR_small (abs_nonneg _)
  have h4 : ηR ≤ 1 / 2 := by
    have := ηR_small; have := uR_small; have := ηR_pos; linarith
  linarith

theorem slack_pow {w z : ℝ} {n : ℕ} (h : |w - z| ≤ uR * |z| + ηR) (hz : |z| ≤ 2 ^ n) : |w| ≤ 2 ^ (n + 1) := by
  rw [pow_succ']
  exact slack h hz (one_le_pow₀ (by norm_num))

theorem add_pow {a b : ℝ} {n : ℕ} (ha : |a| ≤ 2 ^ n) (hb : |b| ≤ 2 ^ n) : |a + b| ≤ 2 ^ (n + 1) := by
  rw [pow_succ', two_mul]
  exact (abs_add_le _ _).trans (add_le_add ha hb)

theorem mul_pow_le {a b : ℝ} {m n : ℕ} (ha : |a| ≤ 2 ^ m) (hb : |b| ≤ 2 ^ n) : |a * b| ≤ 2 ^ (m + n) := by
  rw [abs_mul, pow_add]
  exact mul_le_mul ha hb (abs_nonneg _) (by positivity)

/-- The squared length: what the roundings do. -/
theorem length2_parts (v : Vec2 Double) (hx : |v.x.real| ≤ 2 ^ 510) (hy : |v.y.real| ≤ 2 ^ 510) :
    ∃ a b : ℝ, |a - v.x.real * v.x.real| ≤ uR * (v.x.real * v.x.real) + ηR ∧
      |b - v.y.real * v.y.real| ≤ uR * (v.y.real * v.y.real) + ηR ∧ |v.length2.real - (a + b)| ≤ uR * |a + b| + ηR ∧
      0 ≤ v.length2.real ∧ v.length2.Finite := by
  have hX := mul_ok v.x v.x ((mul_pow_le hx hx).trans (pow_le_real (by norm_num)))
  have hY := mul_ok v.y v.y ((mul_pow_le hy hy).trans (pow_le_real (by norm_num)))
  have bX := slack_pow hX (mul_pow_le hx hx)
  have bY := slack_pow hY (mul_pow_le hy hy)
  have bS := add_pow bX bY
  have hS := add_ok (v.x * v.x) (v.y * v.y) (bS.trans (pow_le_real (by norm_num)))
  have bT := slack_pow hS bS
  rw [abs_of_nonneg (mul_self_nonneg v.x.real)] at hX
  rw [abs_of_nonneg (mul_self_nonneg v.y.real)] at hY
  refine ⟨_, _, hX, hY, hS, ?_, ?_⟩
  · rw [← real_zero]
    exact real_le.mpr (f_add_nonneg (f_mul_self_nonneg _) (f_mul_self_nonneg _))
  · exact finite_of (pow_lt_real (by norm_num)) bT

/-- The squared length: infinite, or what the roundings do. -/
theorem length2_dich (v : Vec2 Double) : v.length2 = dinf ∨
    ∃ a b : ℝ, |a - v.x.real * v.x.real| ≤ uR * (v.x.real * v.x.real) + ηR ∧
      |b - v.y.real * v.y.real| ≤ uR * (v.y.real * v.y.real) + ηR ∧ |v.length2.real - (a + b)| ≤ uR * |a + b| + ηR ∧
      0 ≤ v.length2.real ∧ v.length2.Finite := by
  have nx : (0 : Double) ≤ v.x * v.x := f_mul_self_nonneg _
  have ny : (0 : Double) ≤ v.y * v.y := f_mul_self_nonneg _
  have hnn : (0 : Double) ≤ v.length2 := f_add_nonneg nx ny
  have over : ∀ a b : Double, a.val = 2 ^ 5000 → 0 ≤ b.val → a + b = dinf := by
    intro a b ha hb
    apply Fl.ext
    rw [dinf_val, Fl.add_val, ha]
    refine double_overflow ?_
    have : (2 : ℚ) ^ 1024 ≤ 2 ^ 5000 := pow_le_pow_right₀ (by norm_num) (by norm_num)
    exact this.trans (le_add_of_nonneg_right hb)
  rcases rnd_dich (v.x.val * v.x.val) with h1 | ⟨-, h1⟩
  · left
    rw [abs_of_nonneg (show (0 : ℚ) ≤ double.rnd (v.x.val * v.x.val) from nx)] at h1
    exact over (v.x * v.x) (v.y * v.y) h1 ny
  rcases rnd_dich (v.y.val * v.y.val) with h2 | ⟨-, h2⟩
  · left
    rw [abs_of_nonneg (show (0 : ℚ) ≤ double.rnd (v.y.val * v.y.val) from ny)] at h2
    have := over (v.y * v.y) (v.x * v.x) h2 nx
    rw [RoundedArith.add_comm] at this
    exact this
  rcases rnd_dich ((v.x * v.x).val + (v.y * v.y).val) with h3 | ⟨h4, h3⟩
  · left
    rw [abs_of_nonneg (show (0 : ℚ) ≤ double.rnd ((v.x * v.x).val + (v.y * v.y).val) from hnn)] at h3
    apply Fl.ext
    rw [dinf_val]
    exact h3
  · right
    push_cast at h1 h2 h3
    rw [abs_of_nonneg (mul_self_nonneg (v.x.val : ℝ))] at h1
    rw [abs_of_nonneg (mul_self_nonneg (v.y.val : ℝ))] at h2
    refine ⟨_, _, h1, h2, h3, ?_, h4⟩
    rw [← real_zero]
    exact real_le.mpr hnn

theorem pow_eq_small : 100 * ηR ≤ uR * (1 / 2 ^ 500 * (1 / 2 ^ 500)) := by
  have key : ∀ c : ℕ, ∀ k : ℕ, k = 22 + (53 + (c + c)) → 100 * (1 / (2 : ℝ) ^ k) ≤ uR * (1 / 2 ^ c * (1 / 2 ^ c)) := by
    intro c k hk
    have h0 : 0 ≤ uR * (1 / 2 ^ c * (1 / 2 ^ c)) := by have := uR_pos; positivity
    have e : 1 / (2 : ℝ) ^ k = 1 / 2 ^ 22 * (uR * (1 / 2 ^ c * (1 / 2 ^ c))) := by
      rw [hk, inv_pow_split, inv_pow_split (m := 53), inv_pow_split (m := c)]; rfl
    rw [e]
    generalize uR * (1 / 2 ^ c * (1 / 2 ^ c)) = W at *
    norm_num
    linarith
  exact key 500 1075 (by norm_num)

/-- Near the unit vector along `(x, y)`. -/
structure NearDir (x y : ℝ) (n : Vec2 Double) : Prop where
  pos : 0 < √(x * x + y * y)
  px : |n.x.real - x / √(x * x + y * y)| ≤ 5 * uR * |x / √(x * x + y * y)| + ηR
  py : |n.y.real - y / √(x * x + y * y)| ≤ 5 * uR * |y / √(x * x + y * y)| + ηR

theorem eps_small {e : ℝ} (he : 1 / 2 ^ 500 ≤ e) : 0 < e ∧ 100 * ηR ≤ uR * (e * e) := by
  have hp : (0 : ℝ) < 1 / 2 ^ 500 := by positivity
  refine ⟨hp.trans_le he, pow_eq_small.trans ?_⟩
  exact mul_le_mul_of_nonneg_left (mul_self_le_mul_self hp.le he) uR_pos.le

variable [PyMath Double] [SqrtOk]

theorem length_inf {v : Vec2 Double} (h : v.length2 = dinf) : v.length = dinf := by
  rw [Vec2.length, h]; exact SqrtOk.infinite

theorem length_parts {v : Vec2 Double} (h0 : 0 ≤ v.length2.real) (hf : v.length2.Finite) :
    |v.length.real - √v.length2.real| ≤ 2 * uR * √v.length2.real := by
  have := SqrtOk.finite v.length2 (real_le.mp (by rw [real_zero]; exact h0)) hf
  have e : 1 / (2 : ℝ) ^ 52 = 2 * uR := by norm_num [uR]
  rw [e] at this
  exact this

/-- `normalized`: the null vector for what is not longer than EPSILON or too long to be squared, a vector near the unit
vector otherwise. -/
theorem normalized_cases (eps : Double) (v : Vec2 Double) (hv : FiniteVec v) (he : 1 / 2 ^ 500 ≤ eps.real)
    (hef : eps.Finite) :
    (v.normalized eps = .ok Vec2.null ∧ (v.length ≤ eps ∨ v.length2 = dinf)) ∨
    (eps < v.length ∧ v.length2 ≠ dinf ∧ |v.length.real - √(v.x.real * v.x.real + v.y.real * v.y.real)| ≤
        31 / 10 * uR * √(v.x.real * v.x.real + v.y.real * v.y.real) ∧
      ∃ n, v.normalized eps = .ok n ∧ NearDir v.x.real v.y.real n) := by
  obtain ⟨ep, heps⟩ := eps_small he
  by_cases hL : eps < v.length
  · have e0 : (0 : Double) < v.length := lt_trans (real_lt.mp (by rw [real_zero]; exact ep)) hL
    have hne : (v.length == 0) = false := by
      simp only [beq_eq_false_iff_ne]; exact e0.ne'
    have hn : v.normalized eps = .ok ⟨v.x / v.length, v.y / v.length⟩ := by
      simp only [Vec2.normalized, gt_iff_lt, hL, if_true, pydiv, hne, Bool.false_eq_true, if_false, bind, Except.bind,
        pure, Except.pure]
    rcases length2_dich v with hd | ⟨a, b, ha, hb, ht, ht0, htf⟩
    · left
      refine ⟨?_, .inr hd⟩
      rw [hn, length_inf hd, (dinf_laws v.x hv.1).2.2.2.1, (dinf_laws v.y hv.2).2.2.2.1]
      rfl
    · right
      have hl := length_parts ht0 htf
      have hs := len_low uR_pos.le uR_small ηR_pos ha hb ht ht0 hl ep heps (real_lt.mpr hL)
      have hle := len_err uR_pos.le uR_small ηR_pos ha hb ht hl hs
      have hr : 0 < √(v.x.real * v.x.real + v.y.real * v.y.real) := by
        refine Real.sqrt_pos.mpr ?_
        have hη : 0 < ηR := by unfold ηR; positivity
        have hp : 0 < uR * (v.x.real * v.x.real + v.y.real * v.y.real) := by linarith
        exact (pos_iff_pos_of_mul_pos hp).mp uR_pos
      refine ⟨hL, ?_, hle, _, hn, hr, ?_, ?_⟩
      · intro hd
        rw [hd, Fl.Finite, dinf_val, abs_of_pos (by positivity)] at htf
        exact absurd htf (not_lt.mpr (pow_le_pow_right₀ (by norm_num) (by norm_num)))
      all_goals
        have hx := abs_le_norm v.x.real v.y.real
        have hy := abs_le_norm v.y.real v.x.real
        rw [add_comm] at hy
        generalize √(v.x.real * v.x.real + v.y.real * v.y.real) = r at *
        have hLr : r ≤ 2 * v.length.real := by
          have h1 := (abs_le.mp hle).1
          have h2 : uR * r ≤ 1 / 1000 * r := mul_le_mul_of_nonneg_right uR_small hr.le
          linarith
        have hLp : 0 < v.length.real := by linarith
        have q : ∀ z : Double, |z.real| ≤ r → |(z / v.length).real - z.real / r| ≤ 5 * uR * |z.real / r| + ηR := by
          intro z hz
          have hb : |z.real / v.length.real| ≤ 2 := by
            rw [abs_div, abs_of_pos hLp, div_le_iff₀ hLp]; linarith
          have := div_ok z v.length (hb.trans (by
            calc (2 : ℝ) = 2 ^ 1 := (pow_one _).symm
              _ ≤ 2 ^ 1023 := pow_le_real (by norm_num)))
          have := quot_err uR_pos.le uR_small hr hle this
          rwa [abs_div, abs_of_pos hr]
      · exact q v.x hx
      · exact q v.y hy
  · left
    refine ⟨?_, .inl (not_lt.mp hL)⟩
    simp only [Vec2.normalized, gt_iff_lt, hL, if_false]

end Planar
