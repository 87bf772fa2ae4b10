import Verif.Lemmas.FloatDist
import Verif.Lemmas.ExactDist
/- From the error bounds to the statements about directions and distances. -/
set_option linter.unusedSectionVars false
namespace Planar
open Spec

theorem vlen_def (v : Vec2 Double) : vlen (toReal v) = √(v.x.real * v.x.real + v.y.real * v.y.real) := rfl

theorem close_of {v : Vec2 ℝ} {n : Vec2 Double} (hv : 0 < vlen v) (h : NearVec 8 (v.x / vlen v) (v.y / vlen v) n) :
    CloseDir v (toReal n) := by
  have hu := uR_pos
  have hu' := uR_small
  have e8 : 8 * uR = 1 / 2 ^ 50 := by norm_num [uR]
  have e16 : 16 * uR = 1 / 2 ^ 49 := by norm_num [uR]
  have hsq := h.sq (norm_unit hv) (by norm_num) le_rfl
  refine ⟨?_, ?_, ?_⟩
  · have := h.1; rw [e8] at this; exact this
  · have := h.2; rw [e8] at this; exact this
  · rw [← e16]
    have hm := Real.mul_self_sqrt (add_nonneg (mul_self_nonneg n.x.real) (mul_self_nonneg n.y.real))
    have h0 := Real.sqrt_nonneg (n.x.real * n.x.real + n.y.real * n.y.real)
    rw [vlen_def]
    rw [← hm] at hsq
    generalize √(n.x.real * n.x.real + n.y.real * n.y.real) = r at *
    obtain ⟨s1, s2⟩ := abs_le.mp hsq
    refine abs_le.mpr ⟨?_, ?_⟩ <;> nlinarith

theorem near_of {v n : Vec2 Double} (h : NearDir v.x.real v.y.real n) : 0 < vlen (toReal v) ∧ CloseDir (toReal v) (toReal n) :=
  ⟨h.pos, close_of h.pos (h.vec.mono (by norm_num))⟩

variable [PyMath Double] [SqrtOk]

/-- Vectors clearly not longer than EPSILON are not longer than EPSILON when their length is computed. -/
theorem long_of {eps : Double} {v : Vec2 Double} (h : eps < v.length)
    (hL : |v.length.real - √(v.x.real * v.x.real + v.y.real * v.y.real)| ≤
        31 / 10 * uR * √(v.x.real * v.x.real + v.y.real * v.y.real)) (he : 0 < eps.real) :
    eps.real * (1 - 1 / 2 ^ 50) < vlen (toReal v) := by
  have hu := uR_pos
  have hu' := uR_small
  have e8 : 8 * uR = 1 / 2 ^ 50 := by norm_num [uR]
  rw [vlen_def, ← e8]
  have h' := real_lt.mpr h
  have hr := Real.sqrt_nonneg (v.x.real * v.x.real + v.y.real * v.y.real)
  generalize √(v.x.real * v.x.real + v.y.real * v.y.real) = r at *
  have := (abs_le.mp hL).2
  by_contra hc
  have hc := not_lt.mp hc
  have h1 : uR * r ≤ uR * (eps.real * (1 - 8 * uR)) := mul_le_mul_of_nonneg_left hc hu.le
  have h2 : 0 < uR * eps.real := mul_pos hu he
  have h3 := mul_pos hu h2
  nlinarith

/-- Vectors clearly longer than EPSILON (and not so long that their squares overflow) have a computed length greater than
EPSILON. -/
theorem long_computed {eps : Double} {v : Vec2 Double} (he : 1 / 2 ^ 500 ≤ eps.real)
    (h : eps.real * (1 + 1 / 2 ^ 50) ≤ vlen (toReal v)) (hm : vlen (toReal v) ≤ 2 ^ 510) :
    eps < v.length ∧ v.length2 ≠ dinf := by
  obtain ⟨ep, heps⟩ := eps_small he
  have hu := uR_pos
  have hu' := uR_small
  have e8 : 8 * uR = 1 / 2 ^ 50 := by norm_num [uR]
  rw [vlen_def] at h hm
  rw [← e8] at h
  have hx := abs_le_norm v.x.real v.y.real
  have hy := abs_le_norm v.y.real v.x.real
  rw [add_comm] at hy
  obtain ⟨a, b, ha, hb, ht, ht0, htf⟩ := length2_parts v (hx.trans hm) (hy.trans hm)
  have hmm := Real.mul_self_sqrt (add_nonneg (mul_self_nonneg v.x.real) (mul_self_nonneg v.y.real))
  have hr : eps.real ≤ √(v.x.real * v.x.real + v.y.real * v.y.real) := by
    have := mul_pos hu ep; clear hm; linarith
  have hs : 50 * ηR ≤ uR * (v.x.real * v.x.real + v.y.real * v.y.real) := by
    have := mul_le_mul_of_nonneg_left (mul_self_le_mul_self ep.le hr) hu.le
    rw [hmm] at this
    have := ηR_pos
    clear hm
    linarith
  have hle := len_err uR_pos.le uR_small ηR_pos ha hb ht (length_parts ht0 htf) hs
  refine ⟨?_, ?_⟩
  · apply real_lt.mp
    clear hm hmm hs ha hb ht hx hy
    generalize √(v.x.real * v.x.real + v.y.real * v.y.real) = r at *
    have := (abs_le.mp hle).1
    have h1 : uR * (eps.real * (1 + 8 * uR)) ≤ uR * r := mul_le_mul_of_nonneg_left h hu.le
    have h2 : 0 < uR * eps.real := mul_pos hu ep
    have h3 : uR * (uR * eps.real) ≤ 1 / 1000 * (uR * eps.real) := mul_le_mul_of_nonneg_right hu' h2.le
    have h4 : (1 - 31 / 10 * uR) * (eps.real * (1 + 8 * uR)) ≤ (1 - 31 / 10 * uR) * r :=
      mul_le_mul_of_nonneg_left h (by linarith)
    linarith
  · intro hd
    rw [hd, Fl.Finite, dinf_val, abs_of_pos (by positivity)] at htf
    exact absurd htf (not_lt.mpr (pow_le_pow_right₀ (by norm_num) (by norm_num)))

/-- The squares of very long vectors overflow. -/
theorem huge_computed {v : Vec2 Double} (h : 2 ^ 513 ≤ vlen (toReal v)) : v.length2 = dinf := by
  have nx : (0 : Double) ≤ v.x * v.x := f_mul_self_nonneg _
  have ny : (0 : Double) ≤ v.y * v.y := f_mul_self_nonneg _
  have over : ∀ a b : Double, a.val = 2 ^ 5000 → 0 ≤ b.val → a + b = dinf := by
    intro a b ha hb
    apply Fl.ext
    rw [dinf_val, Fl.add_val, ha]
    refine double_overflow ?_
    have : (2 : ℚ) ^ 1024 ≤ 2 ^ 5000 := pow_le_pow_right₀ (by norm_num) (by norm_num)
    exact this.trans (le_add_of_nonneg_right hb)
  have big : ∀ z : Double, 2 ^ 512 ≤ |z.real| → (z * z).val = 2 ^ 5000 := by
    intro z hz
    rw [Fl.mul_val]
    refine double_overflow ?_
    have h1 : (2 : ℚ) ^ 512 ≤ |z.val| := by
      have : ((2 ^ 512 : ℚ) : ℝ) ≤ ((|z.val| : ℚ) : ℝ) := by push_cast; exact hz
      exact Rat.cast_le.mp this
    have h2 := mul_self_le_mul_self (by positivity) h1
    rw [abs_mul_abs_self, ← pow_add] at h2
    exact h2
  by_cases h1 : 2 ^ 512 ≤ |v.x.real|
  · exact over (v.x * v.x) (v.y * v.y) (big _ h1) ny
  · by_cases h2 : 2 ^ 512 ≤ |v.y.real|
    · have := over (v.y * v.y) (v.x * v.x) (big _ h2) nx
      rw [RoundedArith.add_comm] at this
      exact this
    · exfalso
      have := norm_within (not_le.mp h1).le (not_le.mp h2).le
      rw [vlen_def] at h
      have h3 : (2 : ℝ) ^ 513 = 2 * 2 ^ 512 := pow_succ' _ _
      have h4 : (0 : ℝ) < 2 ^ 512 := by positivity
      rw [h3] at h
      clear h1 h2 h3 big
      generalize (2 : ℝ) ^ 512 = T at *
      linarith

end Planar
