import Verif.Lemmas.FloatUnit
/- Small numbers are absorbed by large ones: `x + d` is `x` in double precision if `|x| ≥ 2 ^ 56` and `|d| ≤ 2`. -/
namespace Planar
open Spec

theorem absorb_pos {x d : ℚ} (hx : 2 ^ 56 ≤ x) (hd : |d| ≤ 2) (hfix : roundPosMin 53 (-1074) x = x) :
    roundPosMin 53 (-1074) (x + d) = x := by
  obtain ⟨d1, d2⟩ := abs_le.mp hd
  have hx0 : 0 < x := lt_of_lt_of_le (by norm_num) hx
  have hy : 2 ^ 55 ≤ x + d := by linarith [show (2 : ℚ) ^ 56 = 2 ^ 55 + 2 ^ 55 by norm_num, show (2 : ℚ) ≤ 2 ^ 55 by norm_num]
  have hy0 : 0 < x + d := lt_of_lt_of_le (by norm_num) hy
  have lx : 56 ≤ Int.log 2 x := by
    rw [← Int.zpow_le_iff_le_log (by norm_num) hx0]; norm_num; linarith
  have ly : 55 ≤ Int.log 2 (x + d) := by
    rw [← Int.zpow_le_iff_le_log (by norm_num) hy0]; norm_num; linarith
  have ux : ulpMin 53 (-1074) x = 2 ^ (Int.log 2 x - 52) := by
    unfold ulpMin; congr 1; push_cast; omega
  have uy : ulpMin 53 (-1074) (x + d) = 2 ^ (Int.log 2 (x + d) - 52) := by
    unfold ulpMin; congr 1; push_cast; omega
  have hxm : x = (nearestEven (x / ulpMin 53 (-1074) x) : ℚ) * 2 ^ (Int.log 2 x - 52) := by
    conv_lhs => rw [← hfix]
    unfold roundPosMin
    rw [ux]
  generalize nearestEven (x / ulpMin 53 (-1074) x) = n at hxm
  have hlt := Int.lt_zpow_succ_log_self (b := 2) (by norm_num) x
  push_cast at hlt
  -- the next power of two is at least 16 away
  have hgap : x + 16 ≤ 2 ^ (Int.log 2 x + 1) := by
    have e : (2 : ℚ) ^ (Int.log 2 x + 1) = ((2 ^ 53 : ℤ) : ℚ) * 2 ^ (Int.log 2 x - 52) := by
      have e' : ((2 ^ 53 : ℤ) : ℚ) = 2 ^ (53 : ℤ) := by norm_num
      rw [e', ← zpow_add₀ (by norm_num)]; congr 1; omega
    have hp : (0 : ℚ) < 2 ^ (Int.log 2 x - 52) := by positivity
    have hn : n < 2 ^ 53 := by
      have h : (n : ℚ) * 2 ^ (Int.log 2 x - 52) < ((2 ^ 53 : ℤ) : ℚ) * 2 ^ (Int.log 2 x - 52) := by rw [← hxm, ← e]; exact hlt
      exact Int.cast_lt.mp (lt_of_mul_lt_mul_right h hp.le)
    have h16 : (16 : ℚ) ≤ 2 ^ (Int.log 2 x - 52) := by
      calc (16 : ℚ) = 2 ^ (4 : ℤ) := by norm_num
        _ ≤ _ := zpow_le_zpow_right₀ (by norm_num) (by omega)
    have hn' : (n : ℚ) + 1 ≤ ((2 ^ 53 : ℤ) : ℚ) := by exact_mod_cast hn
    have := mul_le_mul_of_nonneg_right hn' hp.le
    rw [e]
    linarith
  have hlog : Int.log 2 (x + d) ≤ Int.log 2 x := by
    have : x + d < 2 ^ (Int.log 2 x + 1) := by linarith
    have := (Int.lt_zpow_iff_log_lt (b := 2) (by norm_num) hy0).mp (by push_cast; exact this)
    omega
  obtain ⟨k, hk⟩ : ∃ k : ℕ, Int.log 2 x - 52 = Int.log 2 (x + d) - 52 + k := ⟨(Int.log 2 x - Int.log 2 (x + d)).toNat, by omega⟩
  obtain ⟨m, hm⟩ : ∃ m : ℤ, x = m * ulpMin 53 (-1074) (x + d) := by
    refine ⟨n * 2 ^ k, ?_⟩
    rw [uy]
    conv_lhs => rw [hxm, hk, zpow_add₀ (by norm_num)]
    push_cast
    rw [zpow_natCast]; ring
  have h8 : (8 : ℚ) ≤ ulpMin 53 (-1074) (x + d) := by
    rw [uy]
    calc (8 : ℚ) = 2 ^ (3 : ℤ) := by norm_num
      _ ≤ _ := zpow_le_zpow_right₀ (by norm_num) (by omega)
  unfold roundPosMin
  generalize ulpMin 53 (-1074) (x + d) = u at *
  have hu : 0 < u := by linarith
  have e1 : (x + d) / u = m + d / u := by rw [hm]; field_simp
  have he := nearestEven_err ((x + d) / u)
  have hdu : |d / u| ≤ 1 / 4 := by
    rw [abs_div, abs_of_pos hu, div_le_iff₀ hu]; linarith
  have : nearestEven ((x + d) / u) = m := by
    rw [e1] at he ⊢
    have h3 : |(nearestEven (m + d / u) : ℚ) - m| ≤ 3 / 4 := by
      have := abs_sub_le (nearestEven (m + d / u) : ℚ) (m + d / u) m
      rw [show (m : ℚ) + d / u - m = d / u by ring] at this
      linarith
    have h4 : |nearestEven ((m : ℚ) + d / u) - m| < 1 := by
      have : (|nearestEven ((m : ℚ) + d / u) - m| : ℚ) < ((1 : ℤ) : ℚ) := by push_cast; linarith
      exact_mod_cast this
    have := Int.abs_lt_one_iff.mp h4
    omega
  rw [this, ← hm]

/-- Adding a number of at most 2 to one of at least `2 ^ 56` changes nothing. -/
theorem absorb {x d : Double} (hx : 2 ^ 56 ≤ |x.real|) (hx' : |x.real| ≤ 2 ^ 1000) (hd : |d.real| ≤ 2) : x + d = x := by
  have pos : ∀ x d : Double, 2 ^ 56 ≤ x.real → x.real ≤ 2 ^ 1000 → |d.real| ≤ 2 → x + d = x := by
    intro x d h1 h2 h3
    have q1 : (2 : ℚ) ^ 56 ≤ x.val := by
      have : (((2 : ℚ) ^ 56 : ℚ) : ℝ) ≤ (x.val : ℝ) := by push_cast; exact h1
      exact_mod_cast this
    have q2 : x.val ≤ (2 : ℚ) ^ 1000 := by
      have : (x.val : ℝ) ≤ (((2 : ℚ) ^ 1000 : ℚ) : ℝ) := by rw [Rat.cast_pow]; exact h2
      exact_mod_cast this
    have q3 : |d.val| ≤ 2 := by
      have : ((|d.val| : ℚ) : ℝ) ≤ ((2 : ℚ) : ℝ) := by push_cast; exact h3
      exact_mod_cast this
    clear h1 h2 h3
    have hpow : ∀ z : ℚ, 0 ≤ z → z ≤ 2 ^ 1000 + 2 → |z| ≤ 2 ^ 1023 := by
      intro z z0 hz
      rw [abs_of_nonneg z0]
      have e : (2 : ℚ) ^ 1023 = 2 ^ 23 * 2 ^ 1000 := by rw [← pow_add]
      have o : (1 : ℚ) ≤ 2 ^ 1000 := one_le_pow₀ (by norm_num)
      rw [e]
      clear e
      generalize (2 : ℚ) ^ 1000 = P at *
      linarith
    have x0 : 0 < x.val := lt_of_lt_of_le (by norm_num) q1
    have hfix : roundPosMin 53 (-1074) x.val = x.val := by
      have := x.fixed
      rw [double_rnd_of_le (hpow _ x0.le (by linarith)), roundMin_pos x0] at this
      exact this
    obtain ⟨d1, d2⟩ := abs_le.mp q3
    have y0 : 0 < x.val + d.val := by
      have : (2 : ℚ) < 2 ^ 56 := by norm_num
      linarith
    refine Fl.ext ?_
    show double.rnd (x.val + d.val) = x.val
    rw [double_rnd_of_le (hpow _ y0.le (by linarith)), roundMin_pos y0]
    exact absorb_pos q1 q3 hfix
  rcases le_total 0 x.real with h | h
  · rw [abs_of_nonneg h] at hx hx'
    exact pos x d hx hx' hd
  · rw [abs_of_nonpos h] at hx hx'
    have := pos (-x) (-d) (by rw [real_neg]; exact hx) (by rw [real_neg]; exact hx') (by rw [real_neg, abs_neg]; exact hd)
    rw [← RoundedArith.neg_add] at this
    have h2 := congrArg (fun z : Double => -z) this
    simpa only [RoundedArith.neg_neg] using h2

end Planar
