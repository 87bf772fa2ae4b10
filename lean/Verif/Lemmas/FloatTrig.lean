import Mathlib.Analysis.SpecialFunctions.Trigonometric.Bounds
import Mathlib.Analysis.Real.Pi.Bounds
import Verif.Lemmas.FloatVec
import Verif.Spec.DoubleTrig
/- Angles in double precision. -/
set_option linter.unusedSectionVars false
namespace Planar
open Spec Real

/-- A whole number of turns. -/
theorem turns_360 (d : ℝ) (k : ℤ) : cosDeg (d - 360 * k) = cosDeg d ∧ sinDeg (d - 360 * k) = sinDeg d := by
  have e : (d - 360 * k) * (π / 180) = d * (π / 180) - k * (2 * π) := by ring
  constructor
  · rw [cosDeg, cosDeg, e, Real.cos_sub_int_mul_two_pi]
  · rw [sinDeg, sinDeg, e, Real.sin_sub_int_mul_two_pi]

theorem deg_rad_bound {x : ℝ} (hx : 0 ≤ x) : x * (π / 180) ≤ x * (35 / 2000) :=
  mul_le_mul_of_nonneg_left (by have := Real.pi_lt_d2; linarith) hx

/-- Close angles have close cosines and sines. -/
theorem trig_close {x y δ : ℝ} (h : |x - y| ≤ δ) :
    |cosDeg x - cosDeg y| ≤ δ * (35 / 2000) ∧ |sinDeg x - sinDeg y| ≤ δ * (35 / 2000) := by
  have p := Real.pi_pos
  have e : |x * (π / 180) - y * (π / 180)| ≤ δ * (35 / 2000) := by
    rw [← sub_mul, abs_mul, abs_of_pos (show 0 < π / 180 by positivity)]
    exact (deg_rad_bound (abs_nonneg _)).trans (mul_le_mul_of_nonneg_right h (by norm_num))
  exact ⟨(Real.abs_cos_sub_cos_le _ _).trans e, (Real.abs_sin_sub_sin_le _ _).trans e⟩

/-- The exact remainder. -/
theorem remainder_range (x : ℚ) : 0 ≤ x - 360 * (⌊x / 360⌋ : ℤ) ∧ x - 360 * (⌊x / 360⌋ : ℤ) < 360 := by
  have h1 := Int.floor_le (x / 360)
  have h2 := Int.lt_floor_add_one (x / 360)
  rw [le_div_iff₀ (by norm_num)] at h1
  rw [div_lt_iff₀ (by norm_num)] at h2
  constructor <;> linarith

variable [PyMath Double] [TrigOk]

theorem ofInt_real (n : ℤ) (h : |n| ≤ 2 ^ 53) : (PyMath.ofInt n : Double).real = n := by
  rw [Fl.real, TrigOk.ofInt n h]; norm_cast

/-- `deg % 360`. -/
theorem fmod_360 (a : Double) (ha : a.Finite) :
    (PyMath.fmod a (PyMath.ofInt 360) : Double).val = double.rnd (a.val - 360 * (⌊a.val / 360⌋ : ℤ)) := by
  have v : (PyMath.ofInt 360 : Double).val = 360 := by rw [TrigOk.ofInt 360 (by norm_num)]; norm_num
  rw [TrigOk.fmod a _ ha]
  · rw [v]; rfl
  · rw [Fl.Finite, v, abs_of_pos (by norm_num)]
    calc (360 : ℚ) ≤ 2 ^ 9 := by norm_num
      _ < 2 ^ 1024 := pow_lt_pow_right₀ (by norm_num) (by norm_num)
  · rw [Fl.lt_iff, v, Fl.zero_val]; norm_num

theorem fmod_near (a : Double) (ha : a.Finite) :
    ∃ k : ℤ, |(PyMath.fmod a (PyMath.ofInt 360) : Double).real - (a.real - 360 * k)| ≤ 361 * uR ∧
      0 ≤ a.real - 360 * k ∧ a.real - 360 * k ≤ 360 := by
  obtain ⟨h1, h2⟩ := remainder_range a.val
  refine ⟨⌊a.val / 360⌋, ?_⟩
  have e : ((a.val - 360 * (⌊a.val / 360⌋ : ℤ) : ℚ) : ℝ) = a.real - 360 * (⌊a.val / 360⌋ : ℤ) := by
    rw [Fl.real]; push_cast; rfl
  have h1' : (0 : ℝ) ≤ ((a.val - 360 * (⌊a.val / 360⌋ : ℤ) : ℚ) : ℝ) := by exact_mod_cast h1
  have h2' : ((a.val - 360 * (⌊a.val / 360⌋ : ℤ) : ℚ) : ℝ) ≤ 360 := by exact_mod_cast h2.le
  have hr := rnd_ok (x := a.val - 360 * (⌊a.val / 360⌋ : ℤ)) (by
    rw [abs_of_nonneg h1']
    exact h2'.trans (le_trans (by norm_num) (pow_le_real (show 9 ≤ 1023 by norm_num))))
  have em : (PyMath.fmod a (PyMath.ofInt 360) : Double).real = ((double.rnd (a.val - 360 * (⌊a.val / 360⌋ : ℤ)) : ℚ) : ℝ) := by
    rw [Fl.real, fmod_360 a ha]
  rw [em, ← e]
  refine ⟨hr.trans ?_, h1', h2'⟩
  rw [abs_of_nonneg h1']
  have := mul_le_mul_of_nonneg_left h2' uR_pos.le
  have := ηR_small
  have := ηR_pos
  linarith

/-- Cosine and sine of an angle in degrees. -/
theorem cosSinDeg_near (a : Double) (ha : a.Finite) :
    |(cosSinDeg a).1.real - cosDeg a.real| ≤ 35 * uR ∧ |(cosSinDeg a).2.real - sinDeg a.real| ≤ 35 * uR := by
  obtain ⟨k, hk, k0, k1⟩ := fmod_near a ha
  obtain ⟨tc, ts⟩ := turns_360 a.real k
  have hu := uR_pos
  have hη := ηR_small
  have hη0 := ηR_pos
  rw [← tc, ← ts]
  generalize a.real - 360 * k = q at *
  have i : ∀ n : ℤ, |n| ≤ 2 ^ 53 → (PyMath.ofInt n : Double).real = n := ofInt_real
  have special : ∀ (n : ℤ) (c s : Double), |n| ≤ 2 ^ 53 → PyMath.fmod a (PyMath.ofInt 360) = PyMath.ofInt n → c.real = cosDeg n →
      s.real = sinDeg n → |c.real - cosDeg q| ≤ 35 * uR ∧ |s.real - sinDeg q| ≤ 35 * uR := by
    intro n c s hn h hc hs
    rw [h, i n hn] at hk
    obtain ⟨t1, t2⟩ := trig_close hk
    rw [hc, hs]
    constructor <;> linarith
  have e90 : (90 : ℝ) * (π / 180) = π / 2 := by ring
  have e180 : (180 : ℝ) * (π / 180) = π := by ring
  have e270 : (270 : ℝ) * (π / 180) = π + π / 2 := by ring
  unfold cosSinDeg
  simp only [beq_iff_eq]
  split_ifs with h1 h2 h3
  · exact special 90 0 1 (by norm_num) h1 (by rw [real_zero, cosDeg]; push_cast; rw [e90, Real.cos_pi_div_two])
      (by rw [real_one, sinDeg]; push_cast; rw [e90, Real.sin_pi_div_two])
  · exact special 180 (-1) 0 (by norm_num) h2 (by rw [real_neg, real_one, cosDeg]; push_cast; rw [e180, Real.cos_pi])
      (by rw [real_zero, sinDeg]; push_cast; rw [e180, Real.sin_pi])
  · refine special 270 0 (-1) (by norm_num) h3 ?_ ?_
    · rw [real_zero, cosDeg]; push_cast; rw [e270, Real.cos_add, Real.cos_pi_div_two, Real.sin_pi]; ring
    · rw [real_neg, real_one, sinDeg]; push_cast; rw [e270, Real.sin_add, Real.cos_pi_div_two, Real.sin_pi_div_two, Real.cos_pi]; ring
  · generalize (PyMath.fmod a (PyMath.ofInt 360) : Double) = d at *
    have hu' := uR_small
    obtain ⟨k2, k3⟩ := abs_le.mp hk
    have hd : |d.real| ≤ 361 := abs_le.mpr ⟨by linarith, by linarith⟩
    have hr := TrigOk.radians d (finite_of (M := 361) (lt_of_le_of_lt (by norm_num) (pow_lt_real (show 9 < 1024 by norm_num))) hd)
    have hb : |d.real * (π / 180)| ≤ 361 * (35 / 2000) := by
      rw [abs_mul, abs_of_pos (show 0 < π / 180 by have := Real.pi_pos; positivity)]
      exact (deg_rad_bound (abs_nonneg _)).trans (mul_le_mul_of_nonneg_right hd (by norm_num))
    have e1074 : 1 / (2 : ℝ) ^ 1074 = 2 * ηR := by
      unfold ηR
      have key : ∀ n : ℕ, 1 / (2 : ℝ) ^ n = 2 * (1 / 2 ^ (n + 1)) := by intro n; rw [inv_pow_split]; ring
      exact key 1074
    rw [u51, e1074] at hr
    have hb2 := mul_le_mul_of_nonneg_left hb (show 0 ≤ 4 * uR by linarith)
    have hr2 : |(PyMath.radians d : Double).real - d.real * (π / 180)| ≤ 256 / 10 * uR := by linarith
    have hq : |d.real * (π / 180) - q * (π / 180)| ≤ 361 * uR * (35 / 2000) := by
      rw [← sub_mul, abs_mul, abs_of_pos (show 0 < π / 180 by have := Real.pi_pos; positivity)]
      exact (deg_rad_bound (abs_nonneg _)).trans (mul_le_mul_of_nonneg_right hk (by norm_num))
    have t := abs_sub_le (PyMath.radians d : Double).real (d.real * (π / 180)) (q * (π / 180))
    have hR : |(PyMath.radians d : Double).real| ≤ 2 ^ 10 := by
      have := abs_sub_abs_le_abs_sub (PyMath.radians d : Double).real (d.real * (π / 180))
      linarith
    have c1 := TrigOk.cos _ hR
    have s1 := TrigOk.sin _ hR
    have e2 : 1 / (2 : ℝ) ^ 52 = 2 * uR := by norm_num [uR]
    rw [e2] at c1 s1
    have c2 := Real.abs_cos_sub_cos_le (PyMath.radians d : Double).real (q * (π / 180))
    have s2 := Real.abs_sin_sub_sin_le (PyMath.radians d : Double).real (q * (π / 180))
    have c3 := abs_sub_le (PyMath.cos (PyMath.radians d) : Double).real (Real.cos (PyMath.radians d : Double).real) (Real.cos (q * (π / 180)))
    have s3 := abs_sub_le (PyMath.sin (PyMath.radians d) : Double).real (Real.sin (PyMath.radians d : Double).real) (Real.sin (q * (π / 180)))
    exact ⟨by rw [cosDeg]; linarith, by rw [sinDeg]; linarith⟩

/-- Multiples of 90 degrees are exact. -/
theorem cosSinDeg_right (a : Double) (ha : a.Finite) (k : ℤ) (h : a.real = 90 * k) :
    (k % 4 = 0 → cosSinDeg a = (1, 0)) ∧ (k % 4 = 1 → cosSinDeg a = (0, 1)) ∧ (k % 4 = 2 → cosSinDeg a = (-1, 0)) ∧
    (k % 4 = 3 → cosSinDeg a = (0, -1)) := by
  have hv : a.val = 90 * k := by
    have : ((a.val : ℚ) : ℝ) = ((90 * k : ℚ) : ℝ) := by push_cast; exact h
    exact_mod_cast this
  have fl : ⌊a.val / 360⌋ = k / 4 := by
    rw [hv]
    have : (90 * (k : ℚ)) / 360 = (k : ℚ) / ((4 : ℕ) : ℚ) := by push_cast; ring
    rw [this, Rat.floor_intCast_div_natCast]
    norm_num
  have i : ∀ n : ℤ, |n| ≤ 2 ^ 53 → (PyMath.ofInt n : Double).val = n := TrigOk.ofInt
  have hm : (PyMath.fmod a (PyMath.ofInt 360) : Double) = PyMath.ofInt (90 * (k % 4)) := by
    apply Fl.ext
    rw [fmod_360 a ha, fl, hv, i _ (by
      have h1 := Int.emod_nonneg k (show (4 : ℤ) ≠ 0 by norm_num)
      have h2 := Int.emod_lt_of_pos k (show (0 : ℤ) < 4 by norm_num)
      rw [abs_of_nonneg (by omega)]; norm_num; omega)]
    have e : (90 * (k : ℚ) - 360 * ((k / 4 : ℤ) : ℚ)) = ((90 * (k % 4) : ℤ) : ℚ) := by
      have := Int.emod_add_mul_ediv k 4
      have h' : (90 * k - 360 * (k / 4) : ℤ) = 90 * (k % 4) := by omega
      rw [← h']; push_cast; ring
    rw [e]
    have := (PyMath.ofInt (90 * (k % 4)) : Double).fixed
    rwa [i _ (by
      have h1 := Int.emod_nonneg k (show (4 : ℤ) ≠ 0 by norm_num)
      have h2 := Int.emod_lt_of_pos k (show (0 : ℤ) < 4 by norm_num)
      rw [abs_of_nonneg (by omega)]; norm_num; omega)] at this
  have ne : ∀ m n : ℤ, |m| ≤ 2 ^ 53 → |n| ≤ 2 ^ 53 → m ≠ n → (PyMath.ofInt m : Double) ≠ PyMath.ofInt n := by
    intro m n h1 h2 h3 h4
    have := congrArg Fl.val h4
    rw [i m h1, i n h2] at this
    exact h3 (by exact_mod_cast this)
  have i0 : (PyMath.ofInt 0 : Double) = 0 := Fl.ext (by rw [i 0 (by norm_num), Fl.zero_val]; norm_num)
  unfold cosSinDeg
  rw [hm]
  simp only [beq_iff_eq]
  refine ⟨fun h => ?_, fun h => ?_, fun h => ?_, fun h => ?_⟩ <;> rw [h]
  · rw [show (90 * 0 : ℤ) = 0 by norm_num, if_neg (ne _ _ (by norm_num) (by norm_num) (by norm_num)),
      if_neg (ne _ _ (by norm_num) (by norm_num) (by norm_num)), if_neg (ne _ _ (by norm_num) (by norm_num) (by norm_num)), i0,
      TrigOk.radians_zero, TrigOk.cos_zero, TrigOk.sin_zero]
  · rw [show (90 * 1 : ℤ) = 90 by norm_num, if_pos rfl]
  · rw [show (90 * 2 : ℤ) = 180 by norm_num, if_neg (ne _ _ (by norm_num) (by norm_num) (by norm_num)), if_pos rfl]
  · rw [show (90 * 3 : ℤ) = 270 by norm_num, if_neg (ne _ _ (by norm_num) (by norm_num) (by norm_num)),
      if_neg (ne _ _ (by norm_num) (by norm_num) (by norm_num)), if_pos rfl]

end Planar
