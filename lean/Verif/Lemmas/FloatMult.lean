import Verif.Lemmas.FloatError
/- Doubles that are not tiny are multiples of a power of two, and so are sums with them. -/
namespace Planar
open Spec

theorem big_mult {a : Double} {k : ℤ} (hf : |a.val| ≤ 2 ^ 1023) (h : (2 : ℚ) ^ (k + 53) ≤ |a.val|) : ∃ n : ℤ, a.val = n * 2 ^ k := by
  have hfix := a.fixed
  rw [double_rnd_of_le hf] at hfix
  obtain ⟨n, j, -, hn, hx⟩ := roundMin_steps (p := 53) (e := -1074) a.val
  rw [hfix] at hx
  have hj : k ≤ j := by
    by_contra hlt
    push Not at hlt
    have h1 : |a.val| ≤ 2 ^ (53 + j) := by
      rw [hx, abs_mul, abs_of_pos (show (0 : ℚ) < 2 ^ j by positivity), zpow_add₀ (by norm_num)]
      refine mul_le_mul_of_nonneg_right ?_ (by positivity)
      calc |(n : ℚ)| = ((|n| : ℤ) : ℚ) := Int.cast_abs.symm
        _ ≤ ((2 ^ 53 : ℤ) : ℚ) := Int.cast_le.mpr hn
        _ = 2 ^ (53 : ℤ) := by norm_num
    have h2 : (2 : ℚ) ^ (53 + j) < 2 ^ (k + 53) := zpow_lt_zpow_right₀ (by norm_num) (by omega)
    linarith
  obtain ⟨d, rfl⟩ : ∃ d : ℕ, j = k + d := ⟨(j - k).toNat, by omega⟩
  refine ⟨n * 2 ^ d, ?_⟩
  rw [hx, zpow_add₀ (by norm_num)]
  push_cast; rw [zpow_natCast]; ring

/-- A sum with a double of at least `2 ^ (k + 54)` is a multiple of `2 ^ k`. -/
theorem add_mult {a b : Double} {k : ℤ} (hk : -1074 ≤ k) (hk' : k + 53 ≤ 1000) (ha : |a.val| ≤ 2 ^ 1022) (hb : |b.val| ≤ 2 ^ 1022)
    (h : (2 : ℚ) ^ (k + 54) ≤ |a.val|) : ∃ n : ℤ, (a + b).val = n * 2 ^ k := by
  have e1023 : (2 : ℚ) ^ 1023 = 2 ^ 1022 + 2 ^ 1022 := by rw [pow_succ]; ring
  have hsum : |a.val + b.val| ≤ 2 ^ 1023 := by rw [e1023]; exact (abs_add_le _ _).trans (add_le_add ha hb)
  have hle : (2 : ℚ) ^ 1022 ≤ 2 ^ 1023 := pow_le_pow_right₀ (by norm_num) (by norm_num)
  have e54 : (2 : ℚ) ^ (k + 54) = 2 ^ (k + 53) + 2 ^ (k + 53) := by
    rw [show k + 54 = (k + 53) + 1 by ring, zpow_add_one₀ (by norm_num)]; ring
  by_cases hc : (2 : ℚ) ^ (k + 53) ≤ |a.val + b.val|
  · refine big_mult ?_ ?_
    · rw [Fl.add_val, double_rnd_of_le hsum]
      have hf : roundMin 53 (-1074) ((2 : ℚ) ^ 1023) = 2 ^ 1023 := by
        have := roundMin_float (F := ℚ) (p := 53) (by norm_num) (e := -1074) 1 1023 (by norm_num) (by norm_num)
        simpa using this
      obtain ⟨h1, h2⟩ := abs_le.mp hsum
      have m1 := roundMin_mono (p := 53) (by norm_num) (-1074) h1
      have m2 := roundMin_mono (p := 53) (by norm_num) (-1074) h2
      rw [roundMin_odd, hf] at m1
      rw [hf] at m2
      exact abs_le.mpr ⟨m1, m2⟩
    · rw [Fl.add_val, double_rnd_of_le hsum]
      have hf : roundMin 53 (-1074) ((2 : ℚ) ^ (k + 53)) = 2 ^ (k + 53) := by
        have := roundMin_float (F := ℚ) (p := 53) (by norm_num) (e := -1074) 1 (k + 53) (by omega) (by norm_num)
        simpa using this
      rcases le_abs.mp hc with h1 | h1
      · have m := roundMin_mono (p := 53) (by norm_num) (-1074) h1
        rw [hf] at m
        exact m.trans (le_abs_self _)
      · have m := roundMin_mono (p := 53) (by norm_num) (-1074) h1
        rw [hf, roundMin_odd] at m
        exact m.trans (neg_le_abs _)
  · push Not at hc
    obtain ⟨m, hm⟩ := big_mult (a := a) (k := k) (ha.trans hle) (by
      rw [e54] at h
      have : (0 : ℚ) < 2 ^ (k + 53) := by positivity
      linarith)
    obtain ⟨n, hn⟩ := big_mult (a := b) (k := k) (hb.trans hle) (by
      rw [e54] at h
      have := abs_sub_abs_le_abs_sub a.val (-b.val)
      rw [abs_neg, sub_neg_eq_add] at this
      linarith)
    refine ⟨m + n, ?_⟩
    have e : a.val + b.val = ((m + n : ℤ) : ℚ) * 2 ^ k := by rw [hm, hn]; push_cast; ring
    rw [Fl.add_val, double_rnd_of_le hsum, e]
    refine roundMin_float (by norm_num) (m + n) k hk ?_
    rw [e, abs_mul, abs_of_pos (show (0 : ℚ) < 2 ^ k by positivity), add_comm k, zpow_add₀ (by norm_num)] at hc
    have := lt_of_mul_lt_mul_right hc (show (0 : ℚ) ≤ 2 ^ k by positivity)
    have h2 : ((|m + n| : ℤ) : ℚ) < ((2 ^ 53 : ℤ) : ℚ) := by
      rw [Int.cast_abs]
      exact lt_of_lt_of_eq this (by norm_num)
    exact (Int.cast_lt.mp h2).le

/-- Different multiples are at least one step apart. -/
theorem mult_apart {x y : ℚ} {k : ℤ} (hx : ∃ n : ℤ, x = n * 2 ^ k) (hy : ∃ n : ℤ, y = n * 2 ^ k) (h : x ≠ y) : (2 : ℚ) ^ k ≤ |y - x| := by
  obtain ⟨m, rfl⟩ := hx
  obtain ⟨n, rfl⟩ := hy
  have hmn : n - m ≠ 0 := by
    intro h0
    exact h (by rw [show n = m by omega])
  rw [← sub_mul, abs_mul, abs_of_pos (show (0 : ℚ) < 2 ^ k by positivity)]
  refine le_mul_of_one_le_left (by positivity) ?_
  have := Int.one_le_abs hmn
  exact_mod_cast this

end Planar
