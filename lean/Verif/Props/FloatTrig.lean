import Verif.Lemmas.FloatTrig
import Verif.Props.FloatVec
import Verif.Props.PolyState
/- Property C81: angles in double precision. -/
set_option linter.unusedSectionVars false
namespace Planar
open Spec Real

theorem u47 : 1 / (2 : ℝ) ^ 47 = 64 * uR := by norm_num [uR]
theorem u46 : 1 / (2 : ℝ) ^ 46 = 128 * uR := by norm_num [uR]
theorem u48 : 1 / (2 : ℝ) ^ 48 = 32 * uR := by norm_num [uR]
theorem u52 : 1 / (2 : ℝ) ^ 52 = 2 * uR := by norm_num [uR]
theorem η1074 : 1 / (2 : ℝ) ^ 1074 = 2 * ηR := by
  have key : ∀ n : ℕ, 1 / (2 : ℝ) ^ n = 2 * (1 / 2 ^ (n + 1)) := by
    intro n; rw [inv_pow_split]; ring
  exact key 1074
theorem η1073 : 1 / (2 : ℝ) ^ 1073 = 4 * ηR := by
  have key : ∀ n : ℕ, 1 / (2 : ℝ) ^ n = 4 * (1 / 2 ^ (n + 2)) := by
    intro n; rw [inv_pow_split]; ring
  exact key 1073

/-- A product with a cosine or sine. -/
theorem coef {x c C : ℝ} (h : |c - C| ≤ 35 * uR) (hC : |C| ≤ 1) :
    |x * c - x * C| ≤ 35 * (uR * |x|) ∧ |x * c| ≤ 104 / 100 * |x| ∧ |c| ≤ 104 / 100 := by
  have x0 := abs_nonneg x
  have hu' := uR_small
  have hc : |c| ≤ 104 / 100 := by have := abs_sub_abs_le_abs_sub c C; linarith
  refine ⟨?_, ?_, hc⟩
  · rw [← mul_sub, abs_mul]
    calc |x| * |c - C| ≤ |x| * (35 * uR) := mul_le_mul_of_nonneg_left h x0
      _ = _ := by ring
  · rw [abs_mul, mul_comm]; exact mul_le_mul_of_nonneg_right hc x0

theorem abs_cosDeg (d : ℝ) : |cosDeg d| ≤ 1 := Real.abs_cos_le_one _
theorem abs_sinDeg (d : ℝ) : |sinDeg d| ≤ 1 := Real.abs_sin_le_one _

/-- Powers times something close to one. -/
theorem pow_104 {x : ℝ} {n : ℕ} (h : |x| ≤ 2 ^ n) {y : ℝ} (hy : |y| ≤ 104 / 100 * |x|) : |y| ≤ 2 ^ (n + 1) := by
  rw [pow_succ']
  have := abs_nonneg x
  linarith

/-- A double next to a real number, up to one unit in the last place. -/
theorem ulp_of {x r : ℝ} (h : |x - r| ≤ uR * |r| + 2 * ηR) : |x - r| ≤ 1 / 2 ^ 52 * |r| + 1 / 2 ^ 1074 := by
  rw [η1074, u52]
  have := mul_nonneg uR_pos.le (abs_nonneg r)
  linarith

/-- A function whose values are next to those of a real function, with a given value at zero. -/
theorem choice_at (C : Double → Prop) (f : ℝ → ℝ) (h : ∀ a, C a → |f a.real| ≤ 2 ^ 1022) (z : Double) (hz : z.real = f 0) :
    ∃ g : Double → Double, g 0 = z ∧ ∀ a, C a → |(g a).real - f a.real| ≤ uR * |f a.real| + 2 * ηR := by
  classical
  have ex : ∀ a : Double, ∃ d : Double, C a → |d.real - f a.real| ≤ uR * |f a.real| + 2 * ηR := by
    intro a
    by_cases ha : C a
    · obtain ⟨d, hd⟩ := double_near _ (h a ha)
      exact ⟨d, fun _ => hd⟩
    · exact ⟨0, fun h => absurd h ha⟩
  choose g hg using ex
  refine ⟨fun a => if a = 0 then z else g a, if_pos rfl, fun a ha => ?_⟩
  by_cases h0 : a = 0
  · have e : ((0 : Double).real) = 0 := by show (((0 : Double).val : ℚ) : ℝ) = 0; rw [Fl.zero_val]; norm_num
    simp only [h0, if_true]
    rw [e, hz, sub_self, abs_zero]
    have h1 := ηR_pos
    have h2 := mul_nonneg uR_pos.le (abs_nonneg (f 0))
    linarith
  · simp only [if_neg h0]; exact hg a ha

/-- The assumptions on square roots, `math.hypot` and the trigonometric functions can be met, all at once. -/
theorem trigOk_exists : ∃ i : PyMath Double, @SqrtOk i ∧ @HypotOk i ∧ @TrigOk i := by
  classical
  obtain ⟨i, hi, hh⟩ := hypotOk_exists
  have z0 : ((0 : Double).real) = 0 := by show (((0 : Double).val : ℚ) : ℝ) = 0; rw [Fl.zero_val]; norm_num
  have z1 : ((1 : Double).real) = 1 := by show (((1 : Double).val : ℚ) : ℝ) = 1; rw [Fl.one_val]; norm_num
  have hπ := Real.pi_gt_three
  have hπ' := Real.pi_lt_four
  have big : ∀ n : ℕ, n ≤ 1022 → (2 : ℝ) ^ n ≤ 2 ^ 1022 := fun n hn => pow_le_real hn
  have q1 : (1 : ℝ) ≤ 2 ^ 1022 := by simpa using big 0 (by norm_num)
  have q7 : (128 : ℝ) ≤ 2 ^ 1022 := le_trans (by norm_num) (big 7 (by norm_num))
  obtain ⟨R, R0, hR⟩ := choice_at (fun a => a.Finite) (fun t => t * (π / 180)) (by
    intro a ha
    have h1 : |a.real| < 2 ^ 1024 := by
      have := (Rat.cast_lt (K := ℝ)).mpr ha
      push_cast at this
      exact this
    rw [abs_mul, abs_of_pos (show 0 < π / 180 by positivity)]
    have key : ∀ n : ℕ, |a.real| < 2 ^ (n + 2) → |a.real| * (π / 180) ≤ 2 ^ n := by
      intro n h
      rw [pow_add] at h
      have h2 : |a.real| * (π / 180) ≤ |a.real| * (1 / 4) := mul_le_mul_of_nonneg_left (by linarith) (abs_nonneg _)
      linarith
    exact key 1022 h1) 0 (by rw [z0, zero_mul])
  obtain ⟨D, D0, hD⟩ := choice_at (fun a => |a.real| ≤ 2 ^ 1000) (fun t => t * (180 / π)) (by
    intro a ha
    rw [abs_mul, abs_of_pos (show 0 < 180 / π by positivity)]
    have h2 : 180 / π ≤ 64 := by rw [div_le_iff₀ (by linarith)]; linarith
    have key : ∀ n : ℕ, |a.real| ≤ 2 ^ n → |a.real| * (180 / π) ≤ 2 ^ (n + 6) := by
      intro n h
      rw [pow_add]
      calc |a.real| * (180 / π) ≤ |a.real| * 64 := mul_le_mul_of_nonneg_left h2 (abs_nonneg _)
        _ ≤ _ := by linarith
    exact (key 1000 ha).trans (big _ (by norm_num))) 0 (by rw [z0, zero_mul])
  obtain ⟨Cc, Cc0, hCc⟩ := choice_at (fun a => |a.real| ≤ 2 ^ 10) Real.cos (fun a _ => (Real.abs_cos_le_one _).trans q1)
    1 (by rw [z1, Real.cos_zero])
  obtain ⟨Ss, Ss0, hSs⟩ := choice_at (fun a => |a.real| ≤ 2 ^ 10) Real.sin (fun a _ => (Real.abs_sin_le_one _).trans q1)
    0 (by rw [z0, Real.sin_zero])
  obtain ⟨Tt, Tt0, hTt⟩ := choice_at (fun a => |a.real| ≤ 3 / 2) Real.tan (by
    intro a ha
    have h1 : 1 / 100 ≤ Real.cos a.real := by
      have hp := Real.pi_gt_d2
      rw [← Real.cos_abs]
      have k := Real.one_sub_mul_le_cos (abs_nonneg a.real) (by linarith)
      have k2 : 2 / π * |a.real| ≤ 99 / 100 := by
        rw [div_mul_eq_mul_div, div_le_iff₀ (by linarith)]; linarith
      linarith
    rw [Real.tan_eq_sin_div_cos, abs_div, abs_of_pos (show 0 < Real.cos a.real by linarith)]
    refine le_trans ?_ q7
    rw [div_le_iff₀ (by linarith)]
    have := Real.abs_sin_le_one a.real
    linarith) 0 (by rw [z0, Real.tan_zero])
  have exA : ∀ y x : Double, ∃ d : Double, |d.real - Complex.arg ⟨x.real, y.real⟩| ≤
      1 / 2 ^ 52 * |Complex.arg ⟨x.real, y.real⟩| + 1 / 2 ^ 1074 := by
    intro y x
    obtain ⟨d, hd⟩ := double_near (Complex.arg ⟨x.real, y.real⟩) ((Complex.abs_arg_le_pi _).trans (le_trans (by linarith) q7))
    exact ⟨d, ulp_of hd⟩
  choose A hA using exA
  let j : PyMath Double := { i with
    ofInt := fun n => dbl n
    fmod := fun a b => Fl.round double (a.val - b.val * (⌊a.val / b.val⌋ : ℤ))
    radians := R, degrees := D, cos := Cc, sin := Ss, tan := Tt, atan2 := A }
  have le51 : ∀ {x : ℝ}, 1 / 2 ^ 52 * |x| + 1 / 2 ^ 1074 ≤ 1 / 2 ^ 51 * |x| + 1 / 2 ^ 1074 := by
    intro x
    exact add_le_add_left (mul_le_mul_of_nonneg_right (by norm_num) (abs_nonneg _)) _
  have one : ∀ {x c : ℝ}, |c| ≤ 1 → |x - c| ≤ uR * |c| + 2 * ηR → |x - c| ≤ 1 / 2 ^ 52 := by
    intro x c h1 h2
    rw [u52]
    have k1 := mul_le_mul_of_nonneg_left h1 uR_pos.le
    have k2 : 1000 * ηR ≤ uR * (1 / 2 ^ 0) := ηR_le (by norm_num)
    have k3 := ηR_pos
    linarith only [k1, k2, k3, h2]
  refine ⟨j, @SqrtOk.mk j hi.finite hi.infinite, @HypotOk.mk j hh.near, @TrigOk.mk j ?_ ?_ ?_ ?_ ?_ ?_ ?_ ?_ ?_ ?_ ?_ ?_⟩
  · intro n hn
    have := dbl_int n hn
    exact (Rat.cast_injective (α := ℝ)) (by push_cast; exact this)
  · intro a b _ _ _; rfl
  · intro a ha; exact (ulp_of (hR a ha)).trans le51
  · intro a ha; exact (ulp_of (hD a ha)).trans le51
  · intro a ha; exact one (Real.abs_cos_le_one _) (hCc a ha)
  · intro a ha; exact one (Real.abs_sin_le_one _) (hSs a ha)
  · intro a ha; exact ulp_of (hTt a ha)
  · intro y x _ _ _; exact hA y x
  · exact R0
  · exact Cc0
  · exact Ss0
  · exact Tt0

variable [PyMath Double] [TrigOk]

/-- **C81** `Vec2.polar`: any finite angle, however large, and the length of the result. -/
theorem C81_polar (a L : Double) (ha : a.Finite) (hL : |L.real| ≤ 2 ^ 500) :
    |(Vec2.polar a L).x.real - L.real * cosDeg a.real| ≤ 1 / 2 ^ 47 * |L.real| + 1 / 2 ^ 1074 ∧
    |(Vec2.polar a L).y.real - L.real * sinDeg a.real| ≤ 1 / 2 ^ 47 * |L.real| + 1 / 2 ^ 1074 ∧
    |vlen (toReal (Vec2.polar a L)) - abs L.real| ≤ 1 / 2 ^ 46 * |L.real| + 1 / 2 ^ 1073 := by
  obtain ⟨hc, hs⟩ := cosSinDeg_near a ha
  have one : ∀ (c : Double) (C : ℝ), |c.real - C| ≤ 35 * uR → |C| ≤ 1 →
      |(c * L).real - L.real * C| ≤ 1 / 2 ^ 47 * |L.real| + 1 / 2 ^ 1074 := by
    intro c C h hC
    obtain ⟨h1, h2, -⟩ := coef (x := L.real) h hC
    rw [mul_comm L.real c.real] at h1 h2
    have hm := mul_ok c L ((pow_104 hL h2).trans (pow_le_real (by norm_num)))
    have t := abs_sub_le (c * L).real (c.real * L.real) (L.real * C)
    have hu := uR_pos
    have k := mul_le_mul_of_nonneg_left h2 hu.le
    have p := mul_nonneg hu.le (abs_nonneg L.real)
    have hη := ηR_pos
    rw [u47, η1074]
    clear hL
    linarith
  have hx := one _ _ hc (abs_cosDeg _)
  have hy := one _ _ hs (abs_sinDeg _)
  refine ⟨hx, hy, ?_⟩
  have k := vlen_close (p := toReal (Vec2.polar a L)) (q := ⟨L.real * cosDeg a.real, L.real * sinDeg a.real⟩) hx hy
  have e : vlen ⟨L.real * cosDeg a.real, L.real * sinDeg a.real⟩ = |L.real| := by
    have h1 : cosDeg a.real * cosDeg a.real + sinDeg a.real * sinDeg a.real = 1 := by
      have := Real.cos_sq_add_sin_sq (a.real * (π / 180)); rw [cosDeg, sinDeg]; linarith
    rw [vlen]
    simp only
    rw [show L.real * cosDeg a.real * (L.real * cosDeg a.real) + L.real * sinDeg a.real * (L.real * sinDeg a.real) =
      L.real * L.real * (cosDeg a.real * cosDeg a.real + sinDeg a.real * sinDeg a.real) by ring, h1, mul_one,
      Real.sqrt_mul_self_eq_abs]
  rw [e] at k
  refine k.trans (le_of_eq ?_)
  rw [u47, u46, η1074, η1073]
  ring

/-- The exact vector turned by `d` degrees. -/
theorem vlen_turn (x y d : ℝ) : vlen ⟨x * cosDeg d - y * sinDeg d, x * sinDeg d + y * cosDeg d⟩ = vlen ⟨x, y⟩ := by
  have h1 : cosDeg d * cosDeg d + sinDeg d * sinDeg d = 1 := by
    have := Real.cos_sq_add_sin_sq (d * (π / 180)); rw [cosDeg, sinDeg]; linarith
  rw [vlen, vlen]
  congr 1
  simp only
  linear_combination (x * x + y * y) * h1

/-- **C81** `rotated`: any finite angle, and the length of the result. -/
theorem C81_rotated (v : Vec2 Double) (a : Double) (ha : a.Finite) (hv : Within (2 ^ 500) v) :
    |(v.rotated a).x.real - (v.x.real * cosDeg a.real - v.y.real * sinDeg a.real)| ≤
      1 / 2 ^ 47 * (|v.x.real| + |v.y.real|) + 1 / 2 ^ 1073 ∧
    |(v.rotated a).y.real - (v.x.real * sinDeg a.real + v.y.real * cosDeg a.real)| ≤
      1 / 2 ^ 47 * (|v.x.real| + |v.y.real|) + 1 / 2 ^ 1073 ∧
    |vlen (toReal (v.rotated a)) - vlen (toReal v)| ≤ 1 / 2 ^ 45 * vlen (toReal v) + 1 / 2 ^ 1072 := by
  obtain ⟨hc, hs⟩ := cosSinDeg_near a ha
  have hu := uR_pos
  have hη := ηR_pos
  obtain ⟨a1, a2, -⟩ := coef (x := v.x.real) hc (abs_cosDeg _)
  obtain ⟨a3, a4, -⟩ := coef (x := v.x.real) hs (abs_sinDeg _)
  obtain ⟨b1, b2, -⟩ := coef (x := v.y.real) hc (abs_cosDeg _)
  obtain ⟨b3, b4, -⟩ := coef (x := v.y.real) hs (abs_sinDeg _)
  have big : ∀ {x y : ℝ}, |x| ≤ 2 ^ 500 → |y| ≤ 104 / 100 * |x| → |y| ≤ 2 ^ 1000 :=
    fun h k => (pow_104 h k).trans (pow_le_real (by norm_num))
  have k1 := cross_in (big hv.1 a2) (big hv.2 b4)
  have k2 := (dot_in (big hv.1 a4) (big hv.2 b2)).1
  have px := mul_nonneg hu.le (abs_nonneg v.x.real)
  have py := mul_nonneg hu.le (abs_nonneg v.y.real)
  have m1 := mul_le_mul_of_nonneg_left a2 hu.le
  have m2 := mul_le_mul_of_nonneg_left a4 hu.le
  have m3 := mul_le_mul_of_nonneg_left b2 hu.le
  have m4 := mul_le_mul_of_nonneg_left b4 hu.le
  have hx : |(v.rotated a).x.real - (v.x.real * cosDeg a.real - v.y.real * sinDeg a.real)| ≤
      1 / 2 ^ 47 * (|v.x.real| + |v.y.real|) + 1 / 2 ^ 1073 := by
    have e : (v.rotated a).x = v.x * (cosSinDeg a).1 - v.y * (cosSinDeg a).2 := rfl
    rw [e, u47, η1073]
    have t := abs_sub_le (v.x * (cosSinDeg a).1 - v.y * (cosSinDeg a).2).real
      (v.x.real * (cosSinDeg a).1.real - v.y.real * (cosSinDeg a).2.real) (v.x.real * cosDeg a.real - v.y.real * sinDeg a.real)
    have t2 : |v.x.real * (cosSinDeg a).1.real - v.y.real * (cosSinDeg a).2.real - (v.x.real * cosDeg a.real - v.y.real * sinDeg a.real)|
        ≤ 35 * (uR * |v.x.real|) + 35 * (uR * |v.y.real|) := by
      rw [show v.x.real * (cosSinDeg a).1.real - v.y.real * (cosSinDeg a).2.real - (v.x.real * cosDeg a.real - v.y.real * sinDeg a.real) =
        (v.x.real * (cosSinDeg a).1.real - v.x.real * cosDeg a.real) - (v.y.real * (cosSinDeg a).2.real - v.y.real * sinDeg a.real) by ring]
      exact (abs_sub _ _).trans (add_le_add a1 b3)
    clear hv
    linarith
  have hy : |(v.rotated a).y.real - (v.x.real * sinDeg a.real + v.y.real * cosDeg a.real)| ≤
      1 / 2 ^ 47 * (|v.x.real| + |v.y.real|) + 1 / 2 ^ 1073 := by
    have e : (v.rotated a).y = v.x * (cosSinDeg a).2 + v.y * (cosSinDeg a).1 := rfl
    rw [e, u47, η1073]
    have t := abs_sub_le (v.x * (cosSinDeg a).2 + v.y * (cosSinDeg a).1).real
      (v.x.real * (cosSinDeg a).2.real + v.y.real * (cosSinDeg a).1.real) (v.x.real * sinDeg a.real + v.y.real * cosDeg a.real)
    have t2 : |v.x.real * (cosSinDeg a).2.real + v.y.real * (cosSinDeg a).1.real - (v.x.real * sinDeg a.real + v.y.real * cosDeg a.real)|
        ≤ 35 * (uR * |v.x.real|) + 35 * (uR * |v.y.real|) := by
      rw [add_sub_add_comm]
      exact (abs_add_le _ _).trans (add_le_add a3 b1)
    clear hv
    linarith
  refine ⟨hx, hy, ?_⟩
  have k := vlen_close (p := toReal (v.rotated a))
    (q := ⟨v.x.real * cosDeg a.real - v.y.real * sinDeg a.real, v.x.real * sinDeg a.real + v.y.real * cosDeg a.real⟩) hx hy
  rw [vlen_turn] at k
  have e : vlen ⟨v.x.real, v.y.real⟩ = vlen (toReal v) := rfl
  rw [e] at k
  have hxr : |v.x.real| ≤ vlen (toReal v) := abs_le_norm _ _
  have hyr : |v.y.real| ≤ vlen (toReal v) := by rw [vlen, add_comm]; exact abs_le_norm _ _
  have e45 : 1 / (2 : ℝ) ^ 45 = 256 * uR := by norm_num [uR]
  rw [u47, η1073] at k
  rw [e45, η1072]
  have q1 := mul_le_mul_of_nonneg_left hxr hu.le
  have q2 := mul_le_mul_of_nonneg_left hyr hu.le
  clear hv
  linarith


/-- **C81** multiples of 90 degrees are exact: `polar`, `rotated` and `Affine.rotation`. -/
theorem C81_right_angles (a : Double) (ha : a.Finite) (k : ℤ) (h : a.real = 90 * k) (v : Vec2 Double) (L : Double) :
    (k % 4 = 0 → Vec2.polar a L = ⟨L, 0⟩ ∧ v.rotated a = v ∧ Affine.rotation a none = ⟨1, 0, 0, 0, 1, 0⟩) ∧
    (k % 4 = 1 → Vec2.polar a L = ⟨0, L⟩ ∧ v.rotated a = ⟨-v.y, v.x⟩ ∧ Affine.rotation a none = ⟨0, 1, 0, -1, 0, 0⟩) ∧
    (k % 4 = 2 → Vec2.polar a L = ⟨-L, 0⟩ ∧ v.rotated a = ⟨-v.x, -v.y⟩ ∧ Affine.rotation a none = ⟨-1, 0, 0, 0, -1, 0⟩) ∧
    (k % 4 = 3 → Vec2.polar a L = ⟨0, -L⟩ ∧ v.rotated a = ⟨v.y, -v.x⟩ ∧ Affine.rotation a none = ⟨0, -1, 0, 1, 0, 0⟩) := by
  obtain ⟨h0, h1, h2, h3⟩ := cosSinDeg_right a ha k h
  have z : -(0 : Double) = 0 := Fl.ext (by rw [Fl.neg_val, Fl.zero_val, neg_zero])
  have nn : ∀ x : Double, - -x = x := fun x => Fl.ext (by rw [Fl.neg_val, Fl.neg_val, neg_neg])
  have s0 : ∀ x : Double, x - 0 = x := fun x => by rw [RoundedArith.sub_def, z, RoundedArith.add_zero]
  have mc : ∀ x y : Double, x * y = y * x := fun x y => Fl.ext (by rw [Fl.mul_val, Fl.mul_val, mul_comm])
  have ml : ∀ x : Double, 1 * x = x := fun x => by rw [mc, RoundedArith.mul_one]
  have zl : ∀ x : Double, 0 * x = 0 := fun x => by rw [mc, RoundedArith.mul_zero]
  have za : ∀ x : Double, 0 + x = x := fun x => by rw [RoundedArith.add_comm, RoundedArith.add_zero]
  have zs : ∀ x : Double, 0 - x = -x := fun x => by rw [RoundedArith.sub_def, za]
  have mn : ∀ x : Double, x * -1 = -x := fun x => Fl.ext (by
    rw [Fl.mul_val, Fl.neg_val, Fl.neg_val, Fl.one_val, mul_neg, mul_one, double.odd, x.fixed])
  have nm : ∀ x : Double, -1 * x = -x := fun x => by rw [mc, mn]
  refine ⟨fun hk => ?_, fun hk => ?_, fun hk => ?_, fun hk => ?_⟩
  · simp only [Vec2.polar, Vec2.rotated, Affine.rotation, h0 hk, z, s0, ml, zl, za, RoundedArith.mul_one, RoundedArith.mul_zero,
      and_self]
  · simp only [Vec2.polar, Vec2.rotated, Affine.rotation, h1 hk, ml, zl, zs, RoundedArith.add_zero, RoundedArith.mul_one,
      RoundedArith.mul_zero, and_self]
  · simp only [Vec2.polar, Vec2.rotated, Affine.rotation, h2 hk, z, s0, zl, za, mn, nm, RoundedArith.mul_zero, and_self]
  · simp only [Vec2.polar, Vec2.rotated, Affine.rotation, h3 hk, zl, zs, RoundedArith.add_zero, mn, nm, nn,
      RoundedArith.mul_zero, and_self]

theorem angle_near (v : Vec2 Double) (hv : FiniteVec v) (h : v.y ≠ 0 ∨ 0 < v.x) :
    |v.angle.real - angleOf (toReal v)| ≤ 13 / 2 * uR * |angleOf (toReal v)| + 128 * ηR := by
  have hA := TrigOk.atan2 v.y v.x hv.2 hv.1 h
  have e : v.angle = PyMath.degrees (PyMath.atan2 v.y v.x) := rfl
  have ea : angleOf (toReal v) = Complex.arg ⟨v.x.real, v.y.real⟩ * (180 / π) := rfl
  rw [e, ea]
  have ar := Complex.abs_arg_le_pi ⟨v.x.real, v.y.real⟩
  generalize Complex.arg ⟨v.x.real, v.y.real⟩ = A at *
  generalize (PyMath.atan2 v.y v.x : Double) = A' at *
  have hp := Real.pi_pos
  have hp3 := Real.pi_gt_d2
  have hp4 := Real.pi_lt_d2
  have hu := uR_pos
  have hu' := uR_small
  have hη := ηR_small
  have hη0 := ηR_pos
  rw [u52, η1074] at hA
  have A0 := abs_nonneg A
  have t := abs_sub_abs_le_abs_sub A'.real A
  have uA := mul_le_mul_of_nonneg_right hu' A0
  have hD := TrigOk.degrees A' (by
    have : |A'.real| ≤ 2 ^ 3 := by norm_num; linarith
    exact this.trans (pow_le_real (by norm_num)))
  rw [u51, η1074] at hD
  have c0 : 0 < 180 / π := by positivity
  have c1 : 180 / π ≤ 58 := by rw [div_le_iff₀ hp]; linarith
  have d1 : |A'.real * (180 / π) - A * (180 / π)| ≤ 2 * uR * |A * (180 / π)| + 116 * ηR := by
    rw [← sub_mul, abs_mul, abs_of_pos c0, abs_mul, abs_of_pos c0]
    have := mul_le_mul_of_nonneg_right hA c0.le
    have := mul_le_mul_of_nonneg_left c1 hη0
    linarith
  have t2 := abs_sub_abs_le_abs_sub (A'.real * (180 / π)) (A * (180 / π))
  have t3 := abs_sub_le (PyMath.degrees A' : Double).real (A'.real * (180 / π)) (A * (180 / π))
  have X0 := abs_nonneg (A * (180 / π))
  generalize |A * (180 / π)| = X at *
  have uX := mul_le_mul_of_nonneg_right hu' X0
  have uX0 := mul_nonneg hu.le X0
  have k : uR * |A'.real * (180 / π)| ≤ uR * (1002 / 1000 * X + 116 * ηR) := mul_le_mul_of_nonneg_left (by linarith) hu.le
  have uη := mul_le_mul_of_nonneg_right hu' hη0
  linarith

/-- **C81** `angle` up to a relative `2 ^ -50`, and `angle_to` up to `2 ^ -49` of the two angles; everywhere but on the negative
x-axis, where 180 and -180 are both right and Python's choice depends on the sign of a zero. -/
theorem C81_angle (v w : Vec2 Double) (hv : FiniteVec v) (hw : FiniteVec w) (h : v.y ≠ 0 ∨ 0 < v.x) (h' : w.y ≠ 0 ∨ 0 < w.x) :
    |v.angle.real - angleOf (toReal v)| ≤ 1 / 2 ^ 50 * |angleOf (toReal v)| + 1 / 2 ^ 1067 ∧
    |(v.angleTo w).real - (angleOf (toReal w) - angleOf (toReal v))| ≤
      1 / 2 ^ 49 * (|angleOf (toReal v)| + |angleOf (toReal w)|) + 1 / 2 ^ 1066 := by
  have k1 := angle_near v hv h
  have k2 := angle_near w hw h'
  have e1 : 1 / (2 : ℝ) ^ 1067 = 256 * ηR := by
    have key : ∀ n : ℕ, 1 / (2 : ℝ) ^ n = 256 * (1 / 2 ^ (n + 8)) := by intro n; rw [inv_pow_split]; ring
    exact key 1067
  have e2 : 1 / (2 : ℝ) ^ 1066 = 512 * ηR := by
    have key : ∀ n : ℕ, 1 / (2 : ℝ) ^ n = 512 * (1 / 2 ^ (n + 9)) := by intro n; rw [inv_pow_split]; ring
    exact key 1066
  rw [e1, e2, u49, u50]
  have hu := uR_pos
  have hu' := uR_small
  have hη := ηR_small
  have hη0 := ηR_pos
  have b : ∀ v : Vec2 ℝ, |angleOf v| ≤ 180 := by
    intro v
    have := Complex.abs_arg_le_pi ⟨v.x, v.y⟩
    have hp := Real.pi_pos
    rw [angleOf, abs_mul, abs_of_pos (show 0 < 180 / π by positivity)]
    calc _ ≤ π * (180 / π) := mul_le_mul_of_nonneg_right this (by positivity)
      _ = 180 := by field_simp
  have bv := b (toReal v)
  have bw := b (toReal w)
  have e : v.angleTo w = w.angle - v.angle := rfl
  rw [e]
  generalize v.angle = α at *
  generalize w.angle = β at *
  have t1 := abs_sub_abs_le_abs_sub α.real (angleOf (toReal v))
  have t2 := abs_sub_abs_le_abs_sub β.real (angleOf (toReal w))
  have X0 := abs_nonneg (angleOf (toReal v))
  have Y0 := abs_nonneg (angleOf (toReal w))
  have tt : |β.real - α.real - (angleOf (toReal w) - angleOf (toReal v))| ≤
      |β.real - angleOf (toReal w)| + |α.real - angleOf (toReal v)| := by
    rw [sub_sub_sub_comm]; exact abs_sub _ _
  have t3 := abs_sub_le (β - α).real (β.real - α.real) (angleOf (toReal w) - angleOf (toReal v))
  have t4 := abs_sub β.real α.real
  generalize |angleOf (toReal v)| = X at *
  generalize |angleOf (toReal w)| = Y at *
  have uX := mul_le_mul_of_nonneg_right hu' X0
  have uX0 := mul_nonneg hu.le X0
  have uY := mul_le_mul_of_nonneg_right hu' Y0
  have uY0 := mul_nonneg hu.le Y0
  have s := sub_ok β α (by
    have : |β.real - α.real| ≤ 2 ^ 10 := by norm_num; linarith
    exact this.trans (pow_le_real (by norm_num)))
  have k : uR * |β.real - α.real| ≤ uR * (101 / 100 * X + 101 / 100 * Y + 256 * ηR) := mul_le_mul_of_nonneg_left (by linarith) hu.le
  have uη := mul_le_mul_of_nonneg_right hu' hη0
  constructor <;> linarith


/-- The last sum of an entry of `Affine.rotation` with a pivot. -/
theorem pivot_entry {P Q A B C S : ℝ} {c : ℝ} {m n t : ℝ} (hA : |A - C| ≤ 35 * uR) (hC : |C| ≤ 1) (hB : |B - S| ≤ 35 * uR)
    (hS : |S| ≤ 1) (hm : |m - P * A| ≤ uR * |P * A| + ηR) (hn : |n - Q * B| ≤ uR * |Q * B| + ηR)
    (ht : |t - (P - m)| ≤ uR * |P - m| + ηR) (hc : |c - (t + n)| ≤ uR * |t + n| + ηR) :
    |c - (P - P * C + Q * S)| ≤ 42 * (uR * |P|) + 40 * (uR * |Q|) + 5 * ηR ∧ |c| ≤ 21 / 10 * |P| + 11 / 10 * |Q| + 5 * ηR := by
  obtain ⟨a1, a2, -⟩ := coef (x := P) hA hC
  obtain ⟨b1, b2, -⟩ := coef (x := Q) hB hS
  have hu := uR_pos
  have hu' := uR_small
  have hη0 := ηR_pos
  have P0 := abs_nonneg P
  have Q0 := abs_nonneg Q
  have uP := mul_nonneg hu.le P0
  have uQ := mul_nonneg hu.le Q0
  have uP' : 1000 * (uR * |P|) ≤ |P| := by nlinarith
  have uQ' : 1000 * (uR * |Q|) ≤ |Q| := by nlinarith
  have huT : uR ≤ 1 / 10000 := by norm_num [uR]
  have uP'' : 10000 * (uR * |P|) ≤ |P| := by nlinarith
  have uQ'' : 10000 * (uR * |Q|) ≤ |Q| := by nlinarith
  have uη : uR * ηR ≤ 1 / 10000 * ηR := mul_le_mul_of_nonneg_right huT hη0
  have a3 := mul_le_mul_of_nonneg_left a2 hu.le
  have b3 := mul_le_mul_of_nonneg_left b2 hu.le
  have tm := abs_sub_le m (P * A) (P * C)
  have tn := abs_sub_le n (Q * B) (Q * S)
  have hPC : |P * C| ≤ |P| := by rw [abs_mul]; exact mul_le_of_le_one_right P0 hC
  have hQS : |Q * S| ≤ |Q| := by rw [abs_mul]; exact mul_le_of_le_one_right Q0 hS
  have m1 := abs_sub_abs_le_abs_sub m (P * C)
  have n1 := abs_sub_abs_le_abs_sub n (Q * S)
  have pm := abs_sub P m
  have t1 := abs_sub_abs_le_abs_sub t (P - m)
  have tn1 := abs_add_le t n
  have k1 : uR * |P - m| ≤ uR * (201 / 100 * |P| + 101 / 100 * ηR) := mul_le_mul_of_nonneg_left (by linarith) hu.le
  have k2 : uR * |t + n| ≤ uR * (202 / 100 * |P| + 101 / 100 * |Q| + 5 * ηR) := mul_le_mul_of_nonneg_left (by linarith) hu.le
  have tt : |t + n - (P - P * C + Q * S)| ≤ |t - (P - m)| + |m - P * C| + |n - Q * S| := by
    have : t + n - (P - P * C + Q * S) = (t - (P - m)) - (m - P * C) + (n - Q * S) := by ring
    rw [this]
    exact (abs_add_le _ _).trans (add_le_add_left (abs_sub _ _) _)
  have tc := abs_sub_le c (t + n) (P - P * C + Q * S)
  have c1 := abs_sub_abs_le_abs_sub c (t + n)
  constructor <;> linarith

theorem pivot_x {P Q : Double} {A B : Double} {C S : ℝ} (hA : |A.real - C| ≤ 35 * uR) (hC : |C| ≤ 1) (hB : |B.real - S| ≤ 35 * uR)
    (hS : |S| ≤ 1) (hP : |P.real| ≤ 2 ^ 500) (hQ : |Q.real| ≤ 2 ^ 500) :
    (|(P - P * A + Q * B).real - (P.real - P.real * C + Q.real * S)| ≤ 42 * (uR * |P.real|) + 40 * (uR * |Q.real|) + 5 * ηR ∧
      |(P - P * A + Q * B).real| ≤ 21 / 10 * |P.real| + 11 / 10 * |Q.real| + 5 * ηR) ∧
    (|(P - Q * B - P * A).real - (P.real - Q.real * S - P.real * C)| ≤ 42 * (uR * |P.real|) + 42 * (uR * |Q.real|) + 5 * ηR ∧
      |(P - Q * B - P * A).real| ≤ 21 / 10 * |P.real| + 11 / 10 * |Q.real| + 5 * ηR) := by
  obtain ⟨a1, a2, -⟩ := coef (x := P.real) hA hC
  obtain ⟨b1, b2, -⟩ := coef (x := Q.real) hB hS
  have hη0 := ηR_pos
  have pa := pow_104 hP a2
  have qb := pow_104 hQ b2
  have hm := mul_ok P A (pa.trans (pow_le_real (by norm_num)))
  have hn := mul_ok Q B (qb.trans (pow_le_real (by norm_num)))
  have mb := slack_pow hm pa
  have nb := slack_pow hn qb
  have b1' : |P.real - (P * A).real| ≤ 2 ^ (500 + 1 + 1 + 1) := by
    rw [sub_eq_add_neg]; exact add_pow (hP.trans (pow_le_real (by norm_num))) (by rw [abs_neg]; exact mb)
  have ht := sub_ok P (P * A) (b1'.trans (pow_le_real (by norm_num)))
  have tb := slack_pow (ht.trans (by linarith)) b1'
  have b2' : |P.real - (Q * B).real| ≤ 2 ^ (500 + 1 + 1 + 1) := by
    rw [sub_eq_add_neg]; exact add_pow (hP.trans (pow_le_real (by norm_num))) (by rw [abs_neg]; exact nb)
  have ht2 := sub_ok P (Q * B) (b2'.trans (pow_le_real (by norm_num)))
  have tb2 := slack_pow (ht2.trans (by linarith)) b2'
  have b3 := add_pow tb (nb.trans (pow_le_real (show 500 + 1 + 1 ≤ 500 + 1 + 1 + 1 + 1 by norm_num)))
  have hc := add_ok (P - P * A) (Q * B) (b3.trans (pow_le_real (by norm_num)))
  refine ⟨pivot_entry hA hC hB hS hm hn (ht.trans (by linarith)) hc, ?_⟩
  have b4 : |(P - Q * B).real - (P * A).real| ≤ 2 ^ (500 + 1 + 1 + 1 + 1 + 1) := by
    rw [sub_eq_add_neg]; exact add_pow tb2 (by rw [abs_neg]; exact mb.trans (pow_le_real (by norm_num)))
  have hf := sub_ok (P - Q * B) (P * A) (b4.trans (pow_le_real (by norm_num)))
  clear b1' b2' b3 b4 tb tb2 mb nb pa qb hP hQ hc ht
  generalize (P - Q * B - P * A).real = f at *
  generalize (P - Q * B).real = t at *
  generalize (P * A).real = m at *
  generalize (Q * B).real = n at *
  generalize P.real = P at *
  generalize Q.real = Q at *
  generalize A.real = A at *
  generalize B.real = B at *
  have hu := uR_pos
  have hu' := uR_small
  have P0 := abs_nonneg P
  have Q0 := abs_nonneg Q
  have uP := mul_nonneg hu.le P0
  have uQ := mul_nonneg hu.le Q0
  have huT : uR ≤ 1 / 10000 := by norm_num [uR]
  have uP'' : 10000 * (uR * |P|) ≤ |P| := by nlinarith
  have uQ'' : 10000 * (uR * |Q|) ≤ |Q| := by nlinarith
  have uη : uR * ηR ≤ 1 / 10000 * ηR := mul_le_mul_of_nonneg_right huT hη0
  have a3 := mul_le_mul_of_nonneg_left a2 hu.le
  have b3 := mul_le_mul_of_nonneg_left b2 hu.le
  have tm := abs_sub_le m (P * A) (P * C)
  have tn := abs_sub_le n (Q * B) (Q * S)
  have hPC : |P * C| ≤ |P| := by rw [abs_mul]; exact mul_le_of_le_one_right P0 hC
  have hQS : |Q * S| ≤ |Q| := by rw [abs_mul]; exact mul_le_of_le_one_right Q0 hS
  have m1 := abs_sub_abs_le_abs_sub m (P * C)
  have n1 := abs_sub_abs_le_abs_sub n (Q * S)
  have pm := abs_sub P n
  have t1 := abs_sub_abs_le_abs_sub t (P - n)
  have tn1 := abs_sub t m
  have k1 : uR * |P - n| ≤ uR * (101 / 100 * |P| + 101 / 100 * |Q| + 101 / 100 * ηR) := mul_le_mul_of_nonneg_left (by linarith) hu.le
  have k2 : uR * |t - m| ≤ uR * (202 / 100 * |P| + 102 / 100 * |Q| + 5 * ηR) := mul_le_mul_of_nonneg_left (by linarith) hu.le
  have tt : |t - m - (P - Q * S - P * C)| ≤ |t - (P - n)| + |m - P * C| + |n - Q * S| := by
    have : t - m - (P - Q * S - P * C) = (t - (P - n)) - (m - P * C) - (n - Q * S) := by ring
    rw [this]
    exact (abs_sub _ _).trans (add_le_add_left (abs_sub _ _) _)
  have tc := abs_sub_le f (t - m) (P - Q * S - P * C)
  have c1 := abs_sub_abs_le_abs_sub f (t - m)
  constructor <;> linarith

/-- **C81** a point transformed by `Affine.rotation(angle, pivot)`, with or without a pivot. -/
theorem C81_rotation (a : Double) (ha : a.Finite) (p : Option (Vec2 Double)) (q : Vec2 Double)
    (hp : ∀ c, p = some c → Within (2 ^ 500) c) (hq : Within (2 ^ 500) q) :
    |((Affine.rotation a p).apply q).x.real - (turned (toReal (p.getD Vec2.null)) (toReal q) a.real).x| ≤
      1 / 2 ^ 47 * (|q.x.real| + |q.y.real| + |(p.getD Vec2.null).x.real| + |(p.getD Vec2.null).y.real|) + 1 / 2 ^ 1070 ∧
    |((Affine.rotation a p).apply q).y.real - (turned (toReal (p.getD Vec2.null)) (toReal q) a.real).y| ≤
      1 / 2 ^ 47 * (|q.x.real| + |q.y.real| + |(p.getD Vec2.null).x.real| + |(p.getD Vec2.null).y.real|) + 1 / 2 ^ 1070 := by
  obtain ⟨hc, hs⟩ := cosSinDeg_near a ha
  have η1070 : 1 / (2 : ℝ) ^ 1070 = 32 * ηR := by
    have key : ∀ n : ℕ, 1 / (2 : ℝ) ^ n = 32 * (1 / 2 ^ (n + 5)) := by intro n; rw [inv_pow_split]; ring
    exact key 1070
  rw [u47, η1070]
  have hC := abs_cosDeg a.real
  have hS := abs_sinDeg a.real
  have hu := uR_pos
  have hη := ηR_pos
  have big : ∀ {x y : ℝ}, |x| ≤ 2 ^ 500 → |y| ≤ 104 / 100 * |x| → |y| ≤ 2 ^ 1000 :=
    fun h k => (pow_104 h k).trans (pow_le_real (by norm_num))
  have core : ∀ (x y A B c : Double) (C S T w : ℝ), |x.real| ≤ 2 ^ 500 → |y.real| ≤ 2 ^ 500 →
      |A.real - C| ≤ 35 * uR → |C| ≤ 1 → |B.real - S| ≤ 35 * uR → |S| ≤ 1 → |c.real| ≤ 21 / 10 * w + 5 * ηR → 0 ≤ w → w ≤ 2 ^ 502 →
      |c.real - T| ≤ 42 * (uR * w) + 5 * ηR →
      |(x * A + y * B + c).real - (x.real * C + y.real * S + T)| ≤ 64 * uR * (|x.real| + |y.real| + w) + 32 * ηR := by
    intro x y A B c C S T w hx hy h1 h2 h3 h4 h5 w0 h6 h7
    obtain ⟨a1, a2, -⟩ := coef (x := x.real) h1 h2
    obtain ⟨b1, b2, -⟩ := coef (x := y.real) h3 h4
    have cb : |c.real| ≤ 2 ^ 1000 := by
      have e : (2 : ℝ) ^ 510 = 256 * 2 ^ 502 := by rw [show (510 : ℕ) = 8 + 502 by norm_num, pow_add]; norm_num
      refine le_trans ?_ (pow_le_real (show 510 ≤ 1000 by norm_num))
      have p1 : (1 : ℝ) ≤ 2 ^ 502 := one_le_pow₀ (by norm_num)
      have := ηR_small
      have := uR_small
      rw [e]
      clear e hx hy
      generalize (2 : ℝ) ^ 502 = M at *
      linarith
    have k := sum3_in (big hx a2) (big hy b2) cb
    have t := abs_sub_le (x * A + y * B + c).real (x.real * A.real + y.real * B.real + c.real) (x.real * C + y.real * S + T)
    have t2 : |x.real * A.real + y.real * B.real + c.real - (x.real * C + y.real * S + T)| ≤
        |x.real * A.real - x.real * C| + |y.real * B.real - y.real * S| + |c.real - T| := by
      rw [add_sub_add_comm, add_sub_add_comm]
      exact (abs_add_le _ _).trans (add_le_add_left (abs_add_le _ _) _)
    have m1 := mul_le_mul_of_nonneg_left a2 hu.le
    have m2 := mul_le_mul_of_nonneg_left b2 hu.le
    have m3 := mul_le_mul_of_nonneg_left h5 hu.le
    have p1 := mul_nonneg hu.le (abs_nonneg x.real)
    have p2 := mul_nonneg hu.le (abs_nonneg y.real)
    have p3 := mul_nonneg hu.le w0
    have uη := mul_le_mul_of_nonneg_right uR_small hη
    clear hx hy h6 cb
    linarith
  have hs' : |(-(cosSinDeg a).2).real - -sinDeg a.real| ≤ 35 * uR := by
    rw [real_neg, ← neg_sub', abs_neg]; exact hs
  have hS' : |-sinDeg a.real| ≤ 1 := by rw [abs_neg]; exact hS
  have w2 : ∀ {P Q : ℝ}, |P| ≤ 2 ^ 500 → |Q| ≤ 2 ^ 500 → |P| + |Q| ≤ 2 ^ 502 := by
    intro P Q h1 h2
    have e : (2 : ℝ) ^ 502 = 4 * 2 ^ 500 := by rw [show (502 : ℕ) = 2 + 500 by norm_num, pow_add]; norm_num
    rw [e]
    have p0 : (0 : ℝ) ≤ 2 ^ 500 := by positivity
    clear e big core hp hq
    generalize (2 : ℝ) ^ 500 = M at *
    linarith
  have ap : ∀ (T : Affine Double), T.apply q = ⟨q.x * T.a + q.y * T.d + T.c, q.x * T.b + q.y * T.e + T.f⟩ := by
    intro T; simp only [Affine.apply, Vec2.mk', RoundedArith.mul_one]
  rw [ap]
  cases p with
  | none =>
    simp only [Option.getD_none]
    have n0 : (Vec2.null : Vec2 Double).x.real = 0 := real_zero
    have n1 : (Vec2.null : Vec2 Double).y.real = 0 := real_zero
    have z : |(0 : Double).real| ≤ 21 / 10 * 0 + 5 * ηR := by rw [real_zero, abs_zero]; linarith
    have z' : |(0 : Double).real - 0| ≤ 42 * (uR * 0) + 5 * ηR := by rw [real_zero, sub_zero, abs_zero]; linarith
    have k1 := core q.x q.y _ _ 0 _ _ 0 0 hq.1 hq.2 hc hC hs' hS' z le_rfl (by positivity) z'
    have k2 := core q.x q.y _ _ 0 _ _ 0 0 hq.1 hq.2 hs hS hc hC z le_rfl (by positivity) z'
    have e1 : (turned (toReal Vec2.null) (toReal q) a.real).x = q.x.real * cosDeg a.real + q.y.real * -sinDeg a.real + 0 := by
      simp only [turned, toReal, n0, n1]; ring
    have e2 : (turned (toReal Vec2.null) (toReal q) a.real).y = q.x.real * sinDeg a.real + q.y.real * cosDeg a.real + 0 := by
      simp only [turned, toReal, n0, n1]; ring
    rw [e1, e2, n0, n1, abs_zero, add_zero (_ + (0 : ℝ))]
    exact ⟨k1, k2⟩
  | some c =>
    simp only [Option.getD_some]
    obtain ⟨c1, c2⟩ := hp c rfl
    obtain ⟨⟨x1, x2⟩, -⟩ := pivot_x hc hC hs hS c1 c2
    obtain ⟨-, y1, y2⟩ := pivot_x hc hC hs hS c2 c1
    have wn := w2 c1 c2
    have ux := mul_nonneg hu.le (abs_nonneg c.x.real)
    have uy := mul_nonneg hu.le (abs_nonneg c.y.real)
    have wx := abs_nonneg c.x.real
    have wy := abs_nonneg c.y.real
    have k1 := core q.x q.y _ _ _ _ _ _ (|c.x.real| + |c.y.real|) hq.1 hq.2 hc hC hs' hS' (x2.trans (by linarith only [wx, wy]))
      (by linarith only [wx, wy]) wn (x1.trans (by linarith only [ux, uy]))
    have k2 := core q.x q.y _ _ _ _ _ _ (|c.x.real| + |c.y.real|) hq.1 hq.2 hs hS hc hC (y2.trans (by linarith only [wx, wy]))
      (by linarith only [wx, wy]) wn (y1.trans (by linarith only [ux, uy]))
    have e1 : (turned (toReal c) (toReal q) a.real).x = q.x.real * cosDeg a.real + q.y.real * -sinDeg a.real +
        (c.x.real - c.x.real * cosDeg a.real + c.y.real * sinDeg a.real) := by
      simp only [turned, toReal]; ring
    have e2 : (turned (toReal c) (toReal q) a.real).y = q.x.real * sinDeg a.real + q.y.real * cosDeg a.real +
        (c.y.real - c.x.real * sinDeg a.real - c.y.real * cosDeg a.real) := by
      simp only [turned, toReal]; ring
    rw [e1, e2]
    rw [show |q.x.real| + |q.y.real| + |c.x.real| + |c.y.real| = |q.x.real| + |q.y.real| + (|c.x.real| + |c.y.real|) by ring]
    exact ⟨k1, k2⟩


/-- The tangent of an angle up to 60 degrees. -/
theorem tan_near (x : Double) (hx : |x.real| ≤ 60) :
    |(PyMath.tan (PyMath.radians x) : Double).real - Real.tan (x.real * (π / 180))| ≤ 32 * uR := by
  have hp := Real.pi_pos
  have hp4 := Real.pi_lt_d2
  have hu := uR_pos
  have hu' : uR ≤ 1 / 10000 := by norm_num [uR]
  have hη := ηR_small
  have hη0 := ηR_pos
  have hr := TrigOk.radians x (finite_of (M := 60) (lt_of_le_of_lt (by norm_num) (pow_lt_real (show 9 < 1024 by norm_num))) hx)
  rw [u51, η1074] at hr
  have hb : |x.real * (π / 180)| ≤ π / 3 := by
    rw [abs_mul, abs_of_pos (show 0 < π / 180 by positivity)]
    calc |x.real| * (π / 180) ≤ 60 * (π / 180) := mul_le_mul_of_nonneg_right hx (by positivity)
      _ = π / 3 := by ring
  generalize x.real * (π / 180) = θ at *
  generalize (PyMath.radians x : Double) = R at *
  have hR : |R.real - θ| ≤ 43 / 10 * uR := by
    have := mul_le_mul_of_nonneg_left hb hu.le
    have := mul_le_mul_of_nonneg_left hp4.le hu.le
    linarith
  have hc : 1 / 2 ≤ Real.cos θ := by
    rw [← Real.cos_pi_div_three, ← Real.cos_abs θ]
    exact Real.cos_le_cos_of_nonneg_of_le_pi (abs_nonneg _) (by linarith) hb
  have hcR : 499 / 1000 ≤ Real.cos R.real := by
    have := Real.abs_cos_sub_cos_le R.real θ
    have := (abs_le.mp (this.trans hR)).1
    linarith
  have R32 : |R.real| ≤ 3 / 2 := by
    have := abs_sub_abs_le_abs_sub R.real θ
    linarith
  have ht := TrigOk.tan R R32
  rw [u52, η1074] at ht
  have c0 : 0 < Real.cos θ := by linarith
  have c1 : 0 < Real.cos R.real := by linarith
  have e : Real.tan R.real - Real.tan θ = Real.sin (R.real - θ) / (Real.cos R.real * Real.cos θ) := by
    rw [Real.tan_eq_sin_div_cos, Real.tan_eq_sin_div_cos, Real.sin_sub, div_sub_div _ _ c1.ne' c0.ne']
  have d1 : |Real.tan R.real - Real.tan θ| ≤ 18 * uR := by
    rw [e, abs_div, abs_of_pos (mul_pos c1 c0), div_le_iff₀ (mul_pos c1 c0)]
    have s1 : |Real.sin (R.real - θ)| ≤ |R.real - θ| := by
      have := Real.abs_sin_sub_sin_le (R.real - θ) 0
      rwa [Real.sin_zero, sub_zero, sub_zero] at this
    have : 499 / 1000 * (1 / 2) ≤ Real.cos R.real * Real.cos θ := mul_le_mul hcR hc (by norm_num) c1.le
    have := mul_le_mul_of_nonneg_left this (show 0 ≤ 18 * uR by linarith)
    linarith
  have tb : |Real.tan θ| ≤ 2 := by
    rw [Real.tan_eq_sin_div_cos, abs_div, abs_of_pos c0, div_le_iff₀ c0]
    have := Real.abs_sin_le_one θ
    linarith
  have t1 := abs_sub_abs_le_abs_sub (Real.tan R.real) (Real.tan θ)
  have t2 := abs_sub_le (PyMath.tan R : Double).real (Real.tan R.real) (Real.tan θ)
  have k : uR * |Real.tan R.real| ≤ uR * (21 / 10) := mul_le_mul_of_nonneg_left (by linarith) hu.le
  linarith

/-- **C81** the entries of `Affine.shear` for angles of up to 60 degrees. -/
theorem C81_shear (x y : Double) (hx : |x.real| ≤ 60) (hy : |y.real| ≤ 60) :
    |(Affine.shear x y).d.real - Real.tan (x.real * (π / 180))| ≤ 1 / 2 ^ 48 ∧
    |(Affine.shear x y).b.real - Real.tan (y.real * (π / 180))| ≤ 1 / 2 ^ 48 ∧
    (Affine.shear x y).a = 1 ∧ (Affine.shear x y).e = 1 ∧ (Affine.shear x y).c = 0 ∧ (Affine.shear x y).f = 0 := by
  rw [u48]
  exact ⟨tan_near x hx, tan_near y hy, rfl, rfl, rfl, rfl⟩

/-! ### regular polygons and stars -/

/-- A vertex at the (rounded) angle `α`. -/
theorem vertex_near (α r c : Double) (hα : α.Finite) (hr : |r.real| ≤ 2 ^ 500) (hc : |c.real| ≤ 2 ^ 500) :
    |((cosSinDeg α).1 * r + c).real - (c.real + r.real * cosDeg α.real)| ≤ 38 * (uR * |r.real|) + 11 / 10 * (uR * |c.real|) + 3 * ηR ∧
    |((cosSinDeg α).2 * r + c).real - (c.real + r.real * sinDeg α.real)| ≤ 38 * (uR * |r.real|) + 11 / 10 * (uR * |c.real|) + 3 * ηR := by
  obtain ⟨h1, h2⟩ := cosSinDeg_near α hα
  have core : ∀ (k : Double) (K : ℝ), |k.real - K| ≤ 35 * uR → |K| ≤ 1 →
      |(k * r + c).real - (c.real + r.real * K)| ≤ 38 * (uR * |r.real|) + 11 / 10 * (uR * |c.real|) + 3 * ηR := by
    intro k K hk hK
    obtain ⟨a1, a2, -⟩ := coef (x := r.real) hk hK
    rw [mul_comm r.real k.real] at a1 a2
    have pa := pow_104 hr a2
    have hm := mul_ok k r (pa.trans (pow_le_real (by norm_num)))
    have mb := slack_pow hm pa
    have sb := add_pow mb (hc.trans (pow_le_real (show 500 ≤ 500 + 1 + 1 by norm_num)))
    have hs := add_ok (k * r) c (sb.trans (pow_le_real (by norm_num)))
    clear pa mb sb hr hc
    have hu := uR_pos
    have hu' : uR ≤ 1 / 10000 := by norm_num [uR]
    have hη0 := ηR_pos
    have P0 := abs_nonneg r.real
    have Q0 := abs_nonneg c.real
    have uP := mul_nonneg hu.le P0
    have uQ := mul_nonneg hu.le Q0
    have uP'' : 10000 * (uR * |r.real|) ≤ |r.real| := by nlinarith
    have uη : uR * ηR ≤ 1 / 10000 * ηR := mul_le_mul_of_nonneg_right hu' hη0
    have a3 := mul_le_mul_of_nonneg_left a2 hu.le
    have hrK : |r.real * K| ≤ |r.real| := by rw [abs_mul]; exact mul_le_of_le_one_right P0 hK
    have t1 := abs_sub_le (k * r).real (k.real * r.real) (r.real * K)
    have t2 := abs_sub_abs_le_abs_sub (k * r).real (r.real * K)
    have t3 := abs_add_le (k * r).real c.real
    have t4 := abs_sub_le (k * r + c).real ((k * r).real + c.real) (c.real + r.real * K)
    have e : (k * r).real + c.real - (c.real + r.real * K) = (k * r).real - r.real * K := by ring
    rw [e] at t4
    have k2 : uR * |(k * r).real + c.real| ≤ uR * (101 / 100 * |r.real| + |c.real| + 2 * ηR) :=
      mul_le_mul_of_nonneg_left (by linarith) hu.le
    linarith
  exact ⟨core _ _ h1 (abs_cosDeg _), core _ _ h2 (abs_sinDeg _)⟩

/-- The angle after `i` steps. -/
theorem angles_near (a s : Double) (S : ℝ) (N : ℕ) (hN : (N : ℝ) ≤ 2 ^ 41) (ha : |a.real| ≤ 720) (hS : 0 ≤ S) (hNS : N * S ≤ 360)
    (hS' : S ≤ 120) (hs : |s.real - S| ≤ uR * S + ηR) (i : ℕ) (hi : i ≤ N) :
    |((fun t => t + s)^[i] a).real - (a.real + i * S)| ≤ i * (1401 * uR) ∧ |((fun t => t + s)^[i] a).real| ≤ 1200 := by
  have hu := uR_pos
  have hη := ηR_small
  have hη0 := ηR_pos
  have bound : ∀ i : ℕ, i ≤ N → |((fun t => t + s)^[i] a).real - (a.real + i * S)| ≤ i * (1401 * uR) →
      |((fun t => t + s)^[i] a).real| ≤ 1082 := by
    intro i hi h
    have hiN : (i : ℝ) ≤ N := by exact_mod_cast hi
    have i0 : (0 : ℝ) ≤ i := by positivity
    have h1 : (i : ℝ) * S ≤ 360 := (mul_le_mul_of_nonneg_right hiN hS).trans hNS
    have h2 : (i : ℝ) * (1401 * uR) ≤ 1 := by
      calc (i : ℝ) * (1401 * uR) ≤ 2 ^ 41 * (1401 * uR) := mul_le_mul_of_nonneg_right (hiN.trans hN) (by linarith)
        _ ≤ 1 := by norm_num [uR]
    have h3 : 0 ≤ (i : ℝ) * S := mul_nonneg i0 hS
    have t := abs_sub_abs_le_abs_sub ((fun t => t + s)^[i] a).real (a.real + i * S)
    have t2 := abs_add_le a.real (i * S)
    rw [abs_of_nonneg h3] at t2
    linarith
  have main : |((fun t => t + s)^[i] a).real - (a.real + i * S)| ≤ i * (1401 * uR) := by
    induction i with
    | zero => simp
    | succ i ih =>
      have ih := ih (by omega)
      have b := bound i (by omega) ih
      rw [Function.iterate_succ_apply']
      generalize ((fun t => t + s)^[i] a) = α at *
      have uS := mul_nonneg hu.le hS
      have uS' := mul_le_mul_of_nonneg_left hS' hu.le
      have hsb : |s.real| ≤ 121 := by
        have := abs_sub_abs_le_abs_sub s.real S
        rw [abs_of_nonneg hS] at this
        have := uR_small
        linarith
      have t := abs_add_le α.real s.real
      have hadd := add_ok α s (by
        have : |α.real + s.real| ≤ 2 ^ 11 := by norm_num; linarith
        exact this.trans (pow_le_real (by norm_num)))
      have k : uR * |α.real + s.real| ≤ uR * 1203 := mul_le_mul_of_nonneg_left (by linarith) hu.le
      have t2 := abs_sub_le (α + s).real (α.real + s.real) (a.real + ((i + 1 : ℕ) : ℝ) * S)
      have e : α.real + s.real - (a.real + ((i + 1 : ℕ) : ℝ) * S) = (α.real - (a.real + i * S)) + (s.real - S) := by push_cast; ring
      rw [e] at t2
      have t3 := abs_add_le (α.real - (a.real + i * S)) (s.real - S)
      have e2 : ((i + 1 : ℕ) : ℝ) * (1401 * uR) = i * (1401 * uR) + 1401 * uR := by push_cast; ring
      rw [e2]
      linarith
  exact ⟨main, (bound i hi main).trans (by norm_num)⟩

/-- The vertices of a regular polygon, one by one. -/
theorem regularVerts_at {K : Type} [PyMath K] [Zero K] [One K] [Neg K] [Add K] [Sub K] [Mul K] [Div K] [BEq K] [LT K] [LE K]
    [DecidableLT K] [DecidableLE K] (s r : K) (c : Vec2 K) (n : ℕ) (a : K) :
    (Polygon.regularVerts s r c n a).length = n ∧ ∀ i, i < n → (Polygon.regularVerts s r c n a)[i]? =
      some ⟨(cosSinDeg ((fun t => t + s)^[i] a)).1 * r + c.x, (cosSinDeg ((fun t => t + s)^[i] a)).2 * r + c.y⟩ := by
  induction n generalizing a with
  | zero => exact ⟨rfl, fun i h => absurd h (Nat.not_lt_zero i)⟩
  | succ n ih =>
    obtain ⟨h1, h2⟩ := ih (a + s)
    refine ⟨by rw [Polygon.regularVerts, List.length_cons, h1], fun i hi => ?_⟩
    cases i with
    | zero => rfl
    | succ i =>
      rw [Polygon.regularVerts, List.getElem?_cons_succ, h2 i (by omega), Function.iterate_succ_apply]

theorem starVerts_at {K : Type} [PyMath K] [Zero K] [One K] [Neg K] [Add K] [Sub K] [Mul K] [Div K] [BEq K] [LT K] [LE K]
    [DecidableLT K] [DecidableLE K] (s r1 r2 : K) (c : Vec2 K) (n : ℕ) (a : K) :
    (Polygon.starVerts s r1 r2 c n a).length = 2 * n ∧ ∀ i, i < 2 * n → (Polygon.starVerts s r1 r2 c n a)[i]? =
      some ⟨(cosSinDeg ((fun t => t + s)^[i] a)).1 * (if i % 2 = 0 then r1 else r2) + c.x,
        (cosSinDeg ((fun t => t + s)^[i] a)).2 * (if i % 2 = 0 then r1 else r2) + c.y⟩ := by
  induction n generalizing a with
  | zero => exact ⟨rfl, fun i h => absurd h (Nat.not_lt_zero i)⟩
  | succ n ih =>
    obtain ⟨h1, h2⟩ := ih (a + s + s)
    refine ⟨by rw [Polygon.starVerts, List.length_cons, List.length_cons, h1]; ring, fun i hi => ?_⟩
    match i with
    | 0 => rfl
    | 1 => rfl
    | i + 2 =>
      rw [Polygon.starVerts, List.getElem?_cons_succ, List.getElem?_cons_succ, h2 i (by omega),
        show (i + 2) % 2 = i % 2 by omega, Function.iterate_succ_apply, Function.iterate_succ_apply]


theorem nearCircle (a s r : Double) (S : ℝ) (N : ℕ) (hN : (N : ℝ) ≤ 2 ^ 41) (ha : |a.real| ≤ 720) (hS : 0 ≤ S) (hNS : N * S ≤ 360)
    (hS' : S ≤ 120) (hs : |s.real - S| ≤ uR * S + ηR) (c : Vec2 Double) (hr : |r.real| ≤ 2 ^ 500) (hc : Within (2 ^ 500) c)
    (i : ℕ) (hi : i ≤ N) :
    NearCircle c r (a.real + i * S) i
      ⟨(cosSinDeg ((fun t => t + s)^[i] a)).1 * r + c.x, (cosSinDeg ((fun t => t + s)^[i] a)).2 * r + c.y⟩ := by
  obtain ⟨h1, h2⟩ := angles_near a s S N hN ha hS hNS hS' hs i hi
  obtain ⟨tc, ts⟩ := trig_close h1
  have hα : ((fun t => t + s)^[i] a).Finite :=
    finite_of (M := 1200) (lt_of_le_of_lt (by norm_num) (pow_lt_real (show 11 < 1024 by norm_num))) h2
  obtain ⟨x1, -⟩ := vertex_near _ r c.x hα hr hc.1
  obtain ⟨-, y1⟩ := vertex_near _ r c.y hα hr hc.2
  generalize ((fun t => t + s)^[i] a) = α at *
  have hu := uR_pos
  have hη0 := ηR_pos
  have r0 := abs_nonneg r.real
  have ur := mul_nonneg hu.le r0
  have ux := mul_nonneg hu.le (abs_nonneg c.x.real)
  have uy := mul_nonneg hu.le (abs_nonneg c.y.real)
  have i0 : (0 : ℝ) ≤ i := by positivity
  have iur := mul_nonneg i0 ur
  have e48 : (i : ℝ) / 2 ^ 48 = i * (32 * uR) := by rw [← u48]; ring
  have mv : ∀ K K' : ℝ, |K - K'| ≤ i * (1401 * uR) * (35 / 2000) → |r.real * K - r.real * K'| ≤ 25 * (i * (uR * |r.real|)) := by
    intro K K' h
    rw [← mul_sub, abs_mul]
    have := mul_le_mul_of_nonneg_left h r0
    linarith
  refine ⟨?_, ?_, ?_⟩
  · have e : (circ (toReal c) r.real (a.real + i * S)).x = c.x.real + r.real * cosDeg (a.real + i * S) := rfl
    have t := abs_sub_le ((cosSinDeg α).1 * r + c.x).real (c.x.real + r.real * cosDeg α.real) (c.x.real + r.real * cosDeg (a.real + i * S))
    rw [add_sub_add_left_eq_sub] at t
    have m := mv _ _ tc
    rw [e, e48, u47, u52, η1073]
    clear hr hc hN
    linarith
  · have e : (circ (toReal c) r.real (a.real + i * S)).y = c.y.real + r.real * sinDeg (a.real + i * S) := rfl
    have t := abs_sub_le ((cosSinDeg α).2 * r + c.y).real (c.y.real + r.real * sinDeg α.real) (c.y.real + r.real * sinDeg (a.real + i * S))
    rw [add_sub_add_left_eq_sub] at t
    have m := mv _ _ ts
    rw [e, e48, u47, u52, η1073]
    clear hr hc hN
    linarith
  · have ex : ((cosSinDeg α).1 * r + c.x).real - c.x.real - r.real * cosDeg α.real =
        ((cosSinDeg α).1 * r + c.x).real - (c.x.real + r.real * cosDeg α.real) := by ring
    have ey : ((cosSinDeg α).2 * r + c.y).real - c.y.real - r.real * sinDeg α.real =
        ((cosSinDeg α).2 * r + c.y).real - (c.y.real + r.real * sinDeg α.real) := by ring
    rw [← ex] at x1
    rw [← ey] at y1
    have k := vlen_close (p := ⟨((cosSinDeg α).1 * r + c.x).real - c.x.real, ((cosSinDeg α).2 * r + c.y).real - c.y.real⟩)
      (q := ⟨r.real * cosDeg α.real, r.real * sinDeg α.real⟩) x1 y1
    have e : vlen ⟨r.real * cosDeg α.real, r.real * sinDeg α.real⟩ = |r.real| := by
      have := vlen_turn r.real 0 α.real
      rw [zero_mul, zero_mul, sub_zero, add_zero] at this
      rw [this, vlen]
      simp only [mul_zero, add_zero]
      exact Real.sqrt_mul_self_eq_abs _
    rw [e] at k
    refine le_trans k ?_
    rw [u46, u52, η1072]
    clear hr hc hN
    linarith

/-- The quotient `360 / n`. -/
theorem step_near (m n : ℕ) (hm : m ≤ 360) (hn : 1 ≤ n) (hn' : n ≤ 2 ^ 40) :
    ((PyMath.ofInt (n : ℤ) : Double) == 0) = false ∧
    |((PyMath.ofInt (m : ℤ) : Double) / PyMath.ofInt (n : ℤ)).real - (m : ℝ) / n| ≤ uR * ((m : ℝ) / n) + ηR := by
  have v : ∀ k : ℕ, k ≤ 2 ^ 40 → (PyMath.ofInt (k : ℤ) : Double).real = k := by
    intro k hk
    rw [ofInt_real (k : ℤ) (by
      rw [abs_of_nonneg (by positivity)]
      have : (k : ℤ) ≤ 2 ^ 40 := by exact_mod_cast hk
      exact this.trans (by norm_num))]
    norm_cast
  have vn := v n hn'
  have vm := v m (hm.trans (by norm_num))
  have n1 : (1 : ℝ) ≤ n := by exact_mod_cast hn
  constructor
  · rw [beq_eq_false_iff_ne]
    intro h
    rw [h, real_zero] at vn
    linarith
  · have h0 : 0 ≤ (m : ℝ) / n := by positivity
    have h1 : (m : ℝ) / n ≤ 360 := by
      rw [div_le_iff₀ (by linarith)]
      have : (m : ℝ) ≤ 360 := by exact_mod_cast hm
      linarith
    have := div_ok (PyMath.ofInt (m : ℤ)) (PyMath.ofInt (n : ℤ)) (by
      rw [vm, vn, abs_of_nonneg h0]
      exact h1.trans (le_trans (by norm_num) (pow_le_real (show 9 ≤ 1023 by norm_num))))
    rwa [vm, vn, abs_of_nonneg h0] at this

/-- **C81** `Polygon.regular` with up to `2 ^ 40` vertices: where the vertices are, and how far from the centre. -/
theorem C81_regular (n : ℕ) (hn : 3 ≤ n) (hn' : n ≤ 2 ^ 40) (r a : Double) (c : Vec2 Double) (ha : |a.real| ≤ 720)
    (hr : |r.real| ≤ 2 ^ 500) (hc : Within (2 ^ 500) c) :
    ∃ P, Polygon.regular (n : ℤ) r c a = .ok P ∧ P.verts.length = n ∧
      ∀ i, i < n → ∃ v, P.verts[i]? = some v ∧ NearCircle c r (a.real + 360 * i / n) i v := by
  obtain ⟨h0, hs⟩ := step_near 360 n le_rfl (by omega) hn'
  obtain ⟨hl, hv⟩ := regularVerts_at ((PyMath.ofInt ((360 : ℕ) : ℤ) : Double) / PyMath.ofInt (n : ℤ)) r c n a
  obtain ⟨q, hq, hqv⟩ := (C43_new (Polygon.regularVerts ((PyMath.ofInt ((360 : ℕ) : ℤ) : Double) / PyMath.ofInt (n : ℤ)) r c n a)
    (some true) none).2 (by rw [hl]; exact hn)
  have hP : ∃ P, Polygon.regular (n : ℤ) r c a = .ok P ∧ P.verts = q.verts := by
    unfold Polygon.regular pydiv
    have e360 : ((360 : ℕ) : ℤ) = 360 := rfl
    rw [e360] at hq
    simp only [h0, bind, Except.bind, Int.toNat_natCast, Bool.false_eq_true, if_false, hq, pure, Except.pure]
    exact ⟨_, rfl, rfl⟩
  obtain ⟨P, h1, h2⟩ := hP
  refine ⟨P, h1, by rw [h2, hqv, hl], fun i hi => ⟨_, by rw [h2, hqv]; exact hv i hi, ?_⟩⟩
  have n3 : (3 : ℝ) ≤ n := by exact_mod_cast hn
  have k := nearCircle a _ r (360 / n) n (by
      have : (n : ℝ) ≤ 2 ^ 40 := by exact_mod_cast hn'
      exact this.trans (by norm_num)) ha (by positivity) (by rw [mul_div_cancel₀ _ (by positivity)])
    (by rw [div_le_iff₀ (by linarith)]; linarith) (by push_cast at hs; exact hs) c hr hc i hi.le
  rwa [show (i : ℝ) * (360 / n) = 360 * i / n by ring] at k

/-- **C81** `Polygon.star` with up to `2 ^ 40` peaks. -/
theorem C81_star (n : ℕ) (hn : 2 ≤ n) (hn' : n ≤ 2 ^ 40) (r1 r2 a : Double) (c : Vec2 Double) (ha : |a.real| ≤ 720)
    (hr1 : |r1.real| ≤ 2 ^ 500) (hr2 : |r2.real| ≤ 2 ^ 500) (hc : Within (2 ^ 500) c) :
    ∃ P, Polygon.star (n : ℤ) r1 r2 c a = .ok P ∧ P.verts.length = 2 * n ∧
      ∀ i, i < 2 * n → ∃ v, P.verts[i]? = some v ∧
        NearCircle c (if i % 2 = 0 then r1 else r2) (a.real + 180 * i / n) i v := by
  obtain ⟨h0, hs⟩ := step_near 180 n (by norm_num) (by omega) hn'
  obtain ⟨hl, hv⟩ := starVerts_at ((PyMath.ofInt ((180 : ℕ) : ℤ) : Double) / PyMath.ofInt (n : ℤ)) r1 r2 c n a
  have hP : ∃ P, Polygon.star (n : ℤ) r1 r2 c a = .ok P ∧
      P.verts = Polygon.starVerts ((PyMath.ofInt ((180 : ℕ) : ℤ) : Double) / PyMath.ofInt (n : ℤ)) r1 r2 c n a := by
    obtain ⟨q, hq, hqv⟩ := (C43_new (Polygon.starVerts ((PyMath.ofInt ((180 : ℕ) : ℤ) : Double) / PyMath.ofInt (n : ℤ)) r1 r2 c n a)
      (some (r1 == r2)) (if (decide (r1 > 0)) == (decide (r2 > 0)) then some true else none)).2 (by rw [hl]; omega)
    unfold Polygon.star pydiv
    have e180 : ((180 : ℕ) : ℤ) = 180 := rfl
    rw [e180] at hq
    simp only [show ¬ (n : ℤ) < 2 by omega, h0, bind, Except.bind, Int.toNat_natCast, Bool.false_eq_true, if_false, hq, pure, Except.pure]
    refine ⟨_, rfl, ?_⟩
    split_ifs <;> exact hqv
  obtain ⟨P, h1, h2⟩ := hP
  refine ⟨P, h1, by rw [h2, hl], fun i hi => ⟨_, by rw [h2]; exact hv i hi, ?_⟩⟩
  have n2 : (2 : ℝ) ≤ n := by exact_mod_cast hn
  have k := nearCircle a _ (if i % 2 = 0 then r1 else r2) (180 / n) (2 * n) (by
      have : (n : ℝ) ≤ 2 ^ 40 := by exact_mod_cast hn'
      push_cast
      calc 2 * (n : ℝ) ≤ 2 * 2 ^ 40 := mul_le_mul_of_nonneg_left this (by norm_num)
        _ ≤ 2 ^ 41 := by norm_num) ha (by positivity) (by
      push_cast
      rw [mul_assoc, mul_div_cancel₀ _ (by positivity)]; norm_num)
    (by rw [div_le_iff₀ (by linarith)]; linarith) (by push_cast at hs; exact hs) c (by split_ifs <;> assumption) hc i hi.le
  rwa [show (i : ℝ) * (180 / n) = 180 * i / n by ring] at k

/-- The hypotheses of C81 are met, for example, by the angles 30 and -450 degrees, the vector (3, 4), the pivot and centre (1, 2),
five vertices and the radii two and one; a turn by -450 degrees is one by -90 degrees, and is exact. -/
example : (dbl 30).Finite ∧ (dbl (-450)).Finite ∧ |(dbl 30).real| ≤ 60 ∧ |(dbl (-450)).real| ≤ 720 ∧
    (dbl (-450)).real = 90 * (-5 : ℤ) ∧ (-5 : ℤ) % 4 = 3 ∧
    Within (2 ^ 500) (dvec 3 4) ∧ Within (2 ^ 500) (dvec 1 2) ∧ |(dbl 2).real| ≤ 2 ^ 500 ∧ |(dbl 1).real| ≤ 2 ^ 500 ∧
    FiniteVec (dvec 3 4) ∧ (dvec 3 4).y ≠ 0 ∧
    (turned ⟨1, 2⟩ (toReal (dvec 3 4)) 30).x = √3 ∧ (circ (toReal (dvec 1 2)) 2 30).y = 3 := by
  have n1 : (dbl 1).real = 1 := by simpa using dbl_int 1 (by norm_num)
  have n2 : (dbl 2).real = 2 := by simpa using dbl_int 2 (by norm_num)
  have n3 : (dbl 3).real = 3 := by simpa using dbl_int 3 (by norm_num)
  have n4 : (dbl 4).real = 4 := by simpa using dbl_int 4 (by norm_num)
  have n30 : (dbl 30).real = 30 := by simpa using dbl_int 30 (by norm_num)
  have n450 : (dbl (-450)).real = -450 := by simpa using dbl_int (-450) (by norm_num)
  have p : ∀ n : ℕ, 10 ≤ n → (1000 : ℝ) ≤ 2 ^ n := fun n hn => le_trans (by norm_num) (pow_le_real hn)
  have fin : ∀ d : Double, |d.real| ≤ 500 → d.Finite := fun d hd =>
    finite_of (M := 500) (lt_of_lt_of_le (by norm_num) (p 1024 (by norm_num))) hd
  have c30 : cosDeg 30 = √3 / 2 := by
    unfold cosDeg; rw [show (30 : ℝ) * (π / 180) = π / 6 by ring, Real.cos_pi_div_six]
  have s30 : sinDeg 30 = 1 / 2 := by
    unfold sinDeg; rw [show (30 : ℝ) * (π / 180) = π / 6 by ring, Real.sin_pi_div_six]
  have ne : (dvec 3 4).y ≠ 0 := by
    intro h
    have h2 : (dbl 4).real = (0 : Double).real := congrArg Fl.real h
    have e : ((0 : Double).real) = 0 := by show (((0 : Double).val : ℚ) : ℝ) = 0; rw [Fl.zero_val]; norm_num
    rw [n4, e] at h2
    norm_num at h2
  refine ⟨fin _ (by rw [n30]; norm_num), fin _ (by rw [n450]; norm_num), by rw [n30]; norm_num, by rw [n450]; norm_num,
    by rw [n450]; norm_num, by norm_num, ⟨?_, ?_⟩, ⟨?_, ?_⟩, ?_, ?_, ⟨fin _ ?_, fin _ ?_⟩, ne, ?_, ?_⟩
  · refine le_trans ?_ (p 500 (by norm_num)); simp only [dvec, n3]; norm_num
  · refine le_trans ?_ (p 500 (by norm_num)); simp only [dvec, n4]; norm_num
  · refine le_trans ?_ (p 500 (by norm_num)); simp only [dvec, n1]; norm_num
  · refine le_trans ?_ (p 500 (by norm_num)); simp only [dvec, n2]; norm_num
  · refine le_trans ?_ (p 500 (by norm_num)); rw [n2]; norm_num
  · refine le_trans ?_ (p 500 (by norm_num)); rw [n1]; norm_num
  · simp only [dvec, n3]; norm_num
  · simp only [dvec, n4]; norm_num
  · simp only [turned, toReal, dvec, n3, n4, c30, s30]; ring
  · simp only [circ, toReal, dvec, n2, s30]; ring

end Planar
