import Mathlib.Tactic.Positivity
import Verif.Lemmas.Rectilinear
import Verif.Spec.Double
/- The rounding error of one double precision operation, and the sign of a difference of products. -/
namespace Planar
open Spec SignType

section
variable {F : Type} [Field F] [LinearOrder F] [IsStrictOrderedRing F] [FloorRing F]

theorem nearestEven_err (z : F) : |(nearestEven z : F) - z| ≤ 1 / 2 := by
  have h0 := Int.fract_nonneg z
  have h1 := Int.fract_lt_one z
  have e : (⌊z⌋ : F) - z = -Int.fract z := by unfold Int.fract; ring
  have e' : ((⌊z⌋ + 1 : ℤ) : F) - z = 1 - Int.fract z := by unfold Int.fract; push_cast; ring
  unfold nearestEven
  split_ifs with a b c
  · rw [e, abs_neg, abs_of_nonneg h0]; exact a.le
  · rw [e', abs_of_nonneg (by linarith)]; linarith
  · rw [e, abs_neg, abs_of_nonneg h0]; exact not_lt.mp b
  · rw [e', abs_of_nonneg (by linarith)]; linarith

theorem roundPosMin_err (p : ℕ) (e : ℤ) {x : F} (hx : 0 < x) :
    |roundPosMin p e x - x| ≤ 2 ^ (-(p : ℤ)) * x ∨
    (x < 2 ^ (e + p) ∧ |roundPosMin p e x - x| ≤ 2 ^ (e - 1) ∧ ∀ n : ℤ, x = n * 2 ^ e → roundPosMin p e x = x) := by
  have hu := ulpMin_pos p e x
  have h : |roundPosMin p e x - x| ≤ ulpMin p e x / 2 := by
    have h1 := nearestEven_err (x / ulpMin p e x)
    have : roundPosMin p e x - x = (nearestEven (x / ulpMin p e x) - x / ulpMin p e x) * ulpMin p e x := by
      unfold roundPosMin; field_simp
    rw [this, abs_mul, abs_of_pos hu]
    calc _ ≤ 1 / 2 * ulpMin p e x := mul_le_mul_of_nonneg_right h1 hu.le
      _ = _ := by ring
  rcases le_or_gt e (Int.log 2 x + 1 - p) with hc | hc
  · left
    refine h.trans ?_
    have h2 := Int.zpow_log_le_self (b := 2) (by norm_num) hx
    push_cast at h2
    rw [ulpMin, max_eq_left hc]
    have : (2 : F) ^ (Int.log 2 x + 1 - (p : ℤ)) / 2 = 2 ^ (-(p : ℤ)) * 2 ^ Int.log 2 x := by
      rw [show Int.log 2 x + 1 - (p : ℤ) = -(p : ℤ) + Int.log 2 x + 1 by ring, zpow_add₀ (by norm_num),
        zpow_add₀ (by norm_num)]; simp
    rw [this]
    exact mul_le_mul_of_nonneg_left h2 (zpow_pos (by norm_num) _).le
  · right
    have hU : ulpMin p e x = 2 ^ e := by rw [ulpMin, max_eq_right hc.le]
    refine ⟨?_, ?_, ?_⟩
    · have := (Int.lt_zpow_iff_log_lt (R := F) (b := 2) (by norm_num) (x := e + p) hx).mpr (by omega)
      exact_mod_cast this
    · rw [hU] at h
      refine h.trans (le_of_eq ?_)
      rw [zpow_sub₀ (by norm_num)]; simp
    · intro n hn
      exact roundPosMin_mul n (by rw [hU]; exact hn)

/-- One rounding: a relative error, or a tiny absolute one; no error for small multiples of the smallest step. -/
theorem roundMin_err (p : ℕ) (e : ℤ) (x : F) :
    |roundMin p e x - x| ≤ 2 ^ (-(p : ℤ)) * |x| ∨
    (|x| < 2 ^ (e + p) ∧ |roundMin p e x - x| ≤ 2 ^ (e - 1) ∧ ∀ n : ℤ, x = n * 2 ^ e → roundMin p e x = x) := by
  rcases lt_trichotomy x 0 with h | h | h
  · have hx : 0 < -x := by linarith
    rw [roundMin_neg h, abs_of_neg h, show -roundPosMin p e (-x) - x = -(roundPosMin p e (-x) - -x) by ring, abs_neg]
    rcases roundPosMin_err p e hx with h1 | ⟨h1, h2, h3⟩
    · exact .inl h1
    · refine .inr ⟨h1, h2, fun n hn => ?_⟩
      rw [h3 (-n) (by rw [hn]; push_cast; ring), neg_neg]
  · left; rw [h, roundMin_zero]; simp
  · rw [roundMin_pos h, abs_of_pos h]
    exact roundPosMin_err p e h
end

/-! ### doubles -/

/-- Nothing below `2 ^ 1023` overflows. -/
theorem double_rnd_of_le {x : ℚ} (h : |x| ≤ 2 ^ 1023) : double.rnd x = roundMin 53 (-1074) x := by
  rw [double_rnd]
  refine saturate_of_lt ?_
  have hf : roundMin 53 (-1074) ((2 : ℚ) ^ 1023) = 2 ^ 1023 := by
    have := roundMin_float (F := ℚ) (p := 53) (by norm_num) (e := -1074) 1 1023 (by norm_num) (by norm_num)
    simpa using this
  obtain ⟨h1, h2⟩ := abs_le.mp h
  have m1 := roundMin_mono (p := 53) (by norm_num) (-1074) h1
  have m2 := roundMin_mono (p := 53) (by norm_num) (-1074) h2
  rw [roundMin_odd, hf] at m1
  rw [hf] at m2
  have : (2 : ℚ) ^ 1023 < 2 ^ 1024 := pow_lt_pow_right₀ (by norm_num) (by norm_num)
  exact abs_lt.mpr ⟨lt_of_lt_of_le (neg_lt_neg this) m1, lt_of_le_of_lt m2 this⟩

/-- The relative rounding error of double precision. -/
abbrev uRel : ℚ := 1 / 2 ^ 53
/-- The absolute rounding error near zero. -/
abbrev uAbs : ℚ := 1 / 2 ^ 1075

theorem double_rnd_err {x : ℚ} (h : |x| ≤ 2 ^ 1023) : |double.rnd x - x| ≤ uRel * |x| + uAbs := by
  rw [double_rnd_of_le h]
  have e1 : (2 : ℚ) ^ (-((53 : ℕ) : ℤ)) = uRel := by norm_num
  have e2 : (2 : ℚ) ^ ((-1074 : ℤ) - 1) = uAbs := by norm_num
  have h0 : (0 : ℚ) ≤ uRel * |x| := by positivity
  have h0' : (0 : ℚ) ≤ uAbs := by positivity
  rcases roundMin_err 53 (-1074) x with h1 | ⟨-, h1, -⟩
  · rw [e1] at h1; linarith
  · rw [e2] at h1; linarith

theorem double_mult (a : Double) : ∃ n : ℤ, a.val = n * 2 ^ (-1074 : ℤ) := by
  have hfix := a.fixed
  rw [double_rnd] at hfix
  have big : (2 : ℚ) ^ 5000 = ((2 ^ 6074 : ℤ) : ℚ) * 2 ^ (-1074 : ℤ) := by
    push_cast
    rw [zpow_neg, ← div_eq_mul_inv, eq_div_iff (by positivity), ← zpow_natCast, ← zpow_natCast,
      ← zpow_add₀ (by norm_num)]
    norm_num
  unfold saturate at hfix
  split_ifs at hfix
  · exact ⟨_, hfix.symm.trans big⟩
  · exact ⟨-2 ^ 6074, by rw [← hfix, big]; push_cast; ring⟩
  · obtain ⟨n, k, hk, -, hn⟩ := roundMin_steps (p := 53) (e := -1074) a.val
    obtain ⟨d, hd⟩ : ∃ d : ℕ, k = -1074 + d := ⟨(k + 1074).toNat, by omega⟩
    refine ⟨n * 2 ^ d, ?_⟩
    rw [← hfix, hn, hd, zpow_add₀ (by norm_num)]
    push_cast; rw [zpow_natCast]; ring

/-- A difference of doubles has only a relative error. -/
theorem double_sub_err (a b : Double) (h : |a.val - b.val| ≤ 2 ^ 1023) :
    |(a - b).val - (a.val - b.val)| ≤ uRel * |a.val - b.val| := by
  rw [Fl.sub_val, double_rnd_of_le h]
  rcases roundMin_err 53 (-1074) (a.val - b.val) with h1 | ⟨-, -, h1⟩
  · have e1 : (2 : ℚ) ^ (-((53 : ℕ) : ℤ)) = uRel := by norm_num
    rw [e1] at h1; exact h1
  · obtain ⟨m, hm⟩ := double_mult a
    obtain ⟨n, hn⟩ := double_mult b
    rw [h1 (m - n) (by rw [hm, hn]; push_cast; ring), sub_self, abs_zero]
    positivity

/-- A product of two numbers that have relative errors. -/
theorem double_mul_err {a b : Double} {x y : ℚ} (hx : |a.val - x| ≤ uRel * |x|) (hy : |b.val - y| ≤ uRel * |y|)
    (hM : |x| * |y| ≤ 2 ^ 1022) : |(a * b).val - x * y| ≤ 1 / 2 ^ 51 * |x * y| + uAbs := by
  have bx : |a.val| ≤ (1 + uRel) * |x| := by
    have := abs_sub_abs_le_abs_sub a.val x; linarith
  have p : |a.val * b.val - x * y| ≤ (2 * uRel + uRel * uRel) * (|x| * |y|) := by
    have : a.val * b.val - x * y = a.val * (b.val - y) + (a.val - x) * y := by ring
    rw [this]
    refine (abs_add_le _ _).trans ?_
    rw [abs_mul, abs_mul]
    have h1 : |a.val| * |b.val - y| ≤ ((1 + uRel) * |x|) * (uRel * |y|) :=
      mul_le_mul bx hy (abs_nonneg _) (by positivity)
    have h2 : |a.val - x| * |y| ≤ (uRel * |x|) * |y| := mul_le_mul_of_nonneg_right hx (abs_nonneg _)
    calc _ ≤ ((1 + uRel) * |x|) * (uRel * |y|) + (uRel * |x|) * |y| := add_le_add h1 h2
      _ = _ := by ring
  have hxy : (0 : ℚ) ≤ |x| * |y| := by positivity
  have q : |a.val * b.val| ≤ (1 + (2 * uRel + uRel * uRel)) * (|x| * |y|) := by
    have := abs_sub_abs_le_abs_sub (a.val * b.val) (x * y)
    rw [abs_mul x y] at this
    linarith
  have r := double_rnd_err (x := a.val * b.val) (q.trans (by
    calc (1 + (2 * uRel + uRel * uRel)) * (|x| * |y|) ≤ 2 * 2 ^ 1022 :=
          mul_le_mul (by norm_num) hM hxy (by norm_num)
      _ = 2 ^ 1023 := by rw [← pow_succ']))
  rw [Fl.mul_val]
  have s := abs_sub_le (double.rnd (a.val * b.val)) (a.val * b.val) (x * y)
  have u0 : (0 : ℚ) ≤ uRel := by positivity
  have t : uRel * |a.val * b.val| ≤ uRel * ((1 + (2 * uRel + uRel * uRel)) * (|x| * |y|)) :=
    mul_le_mul_of_nonneg_left q u0
  have fin : uRel * ((1 + (2 * uRel + uRel * uRel)) * (|x| * |y|)) + (2 * uRel + uRel * uRel) * (|x| * |y|) ≤
      1 / 2 ^ 51 * (|x| * |y|) := by
    rw [← mul_assoc, ← add_mul]
    exact mul_le_mul_of_nonneg_right (by norm_num) hxy
  rw [abs_mul]
  have key : ∀ A B C D E G H η : ℚ, A ≤ B + C → B ≤ D + η → D ≤ E → C ≤ G → E + G ≤ H → A ≤ H + η := by
    intro A B C D E G H η; intros; linarith
  exact key _ _ _ _ _ _ _ _ s r t p fin

/-- A difference of products has the exact sign unless it is small in comparison with them. -/
theorem double_cross_sign {a b c d : Double} {x y z w : ℚ} (ha : |a.val - x| ≤ uRel * |x|) (hb : |b.val - y| ≤ uRel * |y|)
    (hc : |c.val - z| ≤ uRel * |z|) (hd : |d.val - w| ≤ uRel * |w|) (h1 : |x| * |y| ≤ 2 ^ 1022) (h2 : |z| * |w| ≤ 2 ^ 1022)
    (h : 1 / 2 ^ 51 * (|x * y| + |z * w|) + 1 / 2 ^ 1074 < |x * y - z * w|) :
    SameSign (a * b - c * d) (x * y - z * w) := by
  have e1 := double_mul_err ha hb h1
  have e2 := double_mul_err hc hd h2
  have e3 := sameSign_sub (a * b) (c * d)
  have tot : |(a * b).val - (c * d).val - (x * y - z * w)| < |x * y - z * w| := by
    have : (a * b).val - (c * d).val - (x * y - z * w) = ((a * b).val - x * y) - ((c * d).val - z * w) := by ring
    rw [this]
    refine lt_of_le_of_lt (abs_sub _ _) (lt_of_le_of_lt ?_ h)
    have hu : uAbs + uAbs = 1 / 2 ^ 1074 := by rw [uAbs, pow_succ]; field_simp; norm_num
    rw [← hu]
    clear h1 h2 h hu
    generalize uAbs = η at *
    linarith
  unfold SameSign at e3 ⊢
  rw [e3]
  rcases lt_trichotomy (x * y - z * w) 0 with h0 | h0 | h0
  · rw [abs_of_neg h0, abs_lt] at tot
    rw [sign_neg h0, sign_neg (by linarith [tot.2])]
  · rw [h0] at tot; simp at tot
    exact absurd tot (not_lt.mpr (abs_nonneg _))
  · rw [abs_of_pos h0, abs_lt] at tot
    rw [sign_pos h0, sign_pos (by linarith [tot.1])]

end Planar
