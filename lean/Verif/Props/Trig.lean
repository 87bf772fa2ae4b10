import Verif.Lemmas.RealBasic
import Verif.Model.Affine
import Verif.Spec.Circle
/- Properties C08, C09 (rotation, polar coordinates, angles) over the real numbers. Angles are in degrees. -/
set_option linter.unusedSectionVars false
namespace Planar
open Vec2 Real

/-- **C08** `cos_sin_deg` is the cosine and sine of the angle for every angle, including the special
cases at right angles and the reduction modulo 360. -/
theorem C08_cos_sin_deg (d : ℝ) : cosSinDeg d = (cosDeg d, sinDeg d) := by
  have hred : d * (π / 180) = (d - 360 * (⌊d / 360⌋ : ℝ)) * (π / 180) + (⌊d / 360⌋ : ℤ) * (2 * π) := by
    ring
  have hc : cosDeg d = Real.cos ((d - 360 * (⌊d / 360⌋ : ℝ)) * (π / 180)) := by
    rw [cosDeg, hred, Real.cos_add_int_mul_two_pi]
  have hs : sinDeg d = Real.sin ((d - 360 * (⌊d / 360⌋ : ℝ)) * (π / 180)) := by
    rw [sinDeg, hred, Real.sin_add_int_mul_two_pi]
  rw [hc, hs]
  have h90 : (90 : ℝ) * (π / 180) = π / 2 := by ring
  have h180 : (180 : ℝ) * (π / 180) = π := by ring
  have h270 : (270 : ℝ) * (π / 180) = π + π / 2 := by ring
  have e : PyMath.fmod d (PyMath.ofInt 360) = d - 360 * (⌊d / 360⌋ : ℝ) := by
    simp [PyMath.fmod, PyMath.ofInt]
  unfold cosSinDeg
  rw [e]
  simp only [PyMath.ofInt, PyMath.radians, PyMath.cos, PyMath.sin, beq_iff_eq]
  split_ifs with h1 h2 h3
  · rw [h1]; simp only [Int.cast_ofNat]; rw [h90]; simp
  · rw [h2]; simp only [Int.cast_ofNat]; rw [h180]; simp
  · rw [h3]; simp only [Int.cast_ofNat]; rw [h270]; simp [Real.cos_add, Real.sin_add]
  · rfl

theorem cosDeg_sq_add (d : ℝ) : cosDeg d * cosDeg d + sinDeg d * sinDeg d = 1 := by
  have := Real.cos_sq_add_sin_sq (d * (π / 180))
  unfold cosDeg sinDeg; nlinarith

theorem cosDeg_add (a b : ℝ) : cosDeg (a + b) = cosDeg a * cosDeg b - sinDeg a * sinDeg b := by
  unfold cosDeg sinDeg; rw [add_mul, Real.cos_add]

theorem sinDeg_add (a b : ℝ) : sinDeg (a + b) = sinDeg a * cosDeg b + cosDeg a * sinDeg b := by
  unfold cosDeg sinDeg; rw [add_mul, Real.sin_add]

theorem cosDeg_turns (d : ℝ) (n : ℤ) : cosDeg (d + 360 * n) = cosDeg d := by
  unfold cosDeg
  rw [show (d + 360 * n) * (π / 180) = d * (π / 180) + n * (2 * π) by ring,
    Real.cos_add_int_mul_two_pi]

theorem sinDeg_turns (d : ℝ) (n : ℤ) : sinDeg (d + 360 * n) = sinDeg d := by
  unfold sinDeg
  rw [show (d + 360 * n) * (π / 180) = d * (π / 180) + n * (2 * π) by ring,
    Real.sin_add_int_mul_two_pi]

theorem cosDeg_90 : cosDeg 90 = 0 := by
  unfold cosDeg; rw [show (90 : ℝ) * (π / 180) = π / 2 by ring]; simp
theorem sinDeg_90 : sinDeg 90 = 1 := by
  unfold sinDeg; rw [show (90 : ℝ) * (π / 180) = π / 2 by ring]; simp
theorem cosDeg_0 : cosDeg 0 = 1 := by simp [cosDeg]
theorem sinDeg_0 : sinDeg 0 = 0 := by simp [sinDeg]
theorem cosDeg_180 : cosDeg 180 = -1 := by
  unfold cosDeg; rw [show (180 : ℝ) * (π / 180) = π by ring]; simp
theorem sinDeg_180 : sinDeg 180 = 0 := by
  unfold sinDeg; rw [show (180 : ℝ) * (π / 180) = π by ring]; simp
theorem cosDeg_270 : cosDeg 270 = 0 := by
  rw [show (270:ℝ) = 180 + 90 by norm_num, cosDeg_add, cosDeg_90, sinDeg_180]; ring
theorem sinDeg_270 : sinDeg 270 = -1 := by
  rw [show (270:ℝ) = 180 + 90 by norm_num, sinDeg_add, cosDeg_180, sinDeg_90, cosDeg_90]; ring

/-- rotated in terms of the specification's cosine and sine. -/
theorem rotated_eq (v : Vec2 ℝ) (a : ℝ) :
    v.rotated a = ⟨v.x * cosDeg a - v.y * sinDeg a, v.x * sinDeg a + v.y * cosDeg a⟩ := by
  simp [rotated, C08_cos_sin_deg]

theorem polar_eq (a L : ℝ) : (Vec2.polar a L : Vec2 ℝ) = ⟨cosDeg a * L, sinDeg a * L⟩ := by
  simp [polar, C08_cos_sin_deg]

/-- **C08** rotation preserves length, dot and cross products; rotations compose by adding angles;
whole turns do nothing. -/
theorem C08_rotated (v w : Vec2 ℝ) (a b : ℝ) (n : ℤ) :
    (v.rotated a).length = v.length ∧ (v.rotated a).dot (w.rotated a) = v.dot w ∧
    (v.rotated a).cross (w.rotated a) = v.cross w ∧
    (v.rotated a).rotated b = v.rotated (a + b) ∧ v.rotated 0 = v ∧
    v.rotated (a + 360 * n) = v.rotated a := by
  have hu := cosDeg_sq_add a
  have hdot : ∀ v w : Vec2 ℝ, (v.rotated a).dot (w.rotated a) = v.dot w := by
    intro v w
    rw [rotated_eq, rotated_eq]; simp only [dot]
    linear_combination (v.x * w.x + v.y * w.y) * hu
  refine ⟨?_, hdot v w, ?_, ?_, ?_, ?_⟩
  · have := hdot v v
    unfold length
    congr 1
  · rw [rotated_eq, rotated_eq]; simp only [cross]
    linear_combination (v.x * w.y - v.y * w.x) * hu
  · rw [rotated_eq, rotated_eq, rotated_eq, cosDeg_add, sinDeg_add]
    ext <;> simp <;> ring
  · rw [rotated_eq, cosDeg_0, sinDeg_0]; ext <;> simp
  · rw [rotated_eq, rotated_eq, cosDeg_turns, sinDeg_turns]

/-- **C08** rotation by right angles is exact. -/
theorem C08_right_angles (v : Vec2 ℝ) (n : ℤ) :
    v.rotated (90 + 360 * n) = v.perpendicular ∧ v.rotated (180 + 360 * n) = -v ∧
    v.rotated (270 + 360 * n) = -v.perpendicular ∧ v.rotated (360 * n) = v := by
  have h := (C08_rotated v v 0 0 n).2.2.2.2
  refine ⟨?_, ?_, ?_, ?_⟩
  · rw [rotated_eq, cosDeg_turns, sinDeg_turns, cosDeg_90, sinDeg_90]; ext <;> simp
  · rw [rotated_eq, cosDeg_turns, sinDeg_turns, cosDeg_180, sinDeg_180]; ext <;> simp
  · rw [rotated_eq, cosDeg_turns, sinDeg_turns, cosDeg_270, sinDeg_270]; ext <;> simp
  · have h2 := h.2; rw [zero_add] at h2; rw [h2, h.1]

/-- **C08** polar construction. -/
theorem C08_polar (a b L : ℝ) :
    (Vec2.polar a L : Vec2 ℝ).length = |L| ∧
    (Vec2.polar a L : Vec2 ℝ).rotated b = Vec2.polar (a + b) L ∧
    (Vec2.polar a L : Vec2 ℝ) = (⟨L, 0⟩ : Vec2 ℝ).rotated a := by
  have hu := cosDeg_sq_add a
  refine ⟨?_, ?_, ?_⟩
  · rw [length_eq_iff (abs_nonneg L), abs_mul_abs_self, polar_eq]
    simp only [length2]
    linear_combination L * L * hu
  · rw [polar_eq, polar_eq, rotated_eq, cosDeg_add, sinDeg_add]
    ext <;> simp <;> ring
  · rw [polar_eq, rotated_eq]; ext <;> simp <;> ring

/-- **C09** `angle` is in (-180, 180] and, with the length, gives the vector back. -/
theorem C09_angle (v : Vec2 ℝ) :
    -180 < v.angle ∧ v.angle ≤ 180 ∧ (Vec2.polar v.angle v.length : Vec2 ℝ) = v := by
  have hpi := Real.pi_pos
  set z : ℂ := ⟨v.x, v.y⟩ with hz
  have hang : v.angle = Complex.arg z * (180 / π) := rfl
  have h1 := Complex.neg_pi_lt_arg z
  have h2 := Complex.arg_le_pi z
  have hnorm : ‖z‖ = v.length := by
    rw [Complex.norm_eq_sqrt_sq_add_sq, length_eq]; simp [hz, sq]
  have hrad : v.angle * (π / 180) = Complex.arg z := by rw [hang]; field_simp
  refine ⟨?_, ?_, ?_⟩
  · rw [hang, show (-180:ℝ) = -π * (180 / π) by field_simp]
    exact mul_lt_mul_of_pos_right h1 (by positivity)
  · have h3 := mul_le_mul_of_nonneg_right h2 (show 0 ≤ 180 / π by positivity)
    have h4 : π * (180 / π) = 180 := by field_simp
    rw [hang]; linarith
  · rw [polar_eq, cosDeg, sinDeg, hrad, ← hnorm]
    have e1 := Complex.norm_mul_cos_arg z
    have e2 := Complex.norm_mul_sin_arg z
    ext
    · show Real.cos z.arg * ‖z‖ = v.x
      rw [mul_comm]; exact e1
    · show Real.sin z.arg * ‖z‖ = v.y
      rw [mul_comm]; exact e2

/-- **C09** rotating `a` by `a.angle_to(b)` gives the direction of `b`; the result is congruent modulo 360 to a value in
(-180, 180]. The documented range itself fails, see `C09_angle_to_range_violated`, so this is only part of the property. -/
theorem C09_angle_to_partial (a b : Vec2 ℝ) :
    (a.rotated (a.angleTo b)).smul b.length = b.smul a.length ∧
    -360 < a.angleTo b ∧ a.angleTo b < 360 ∧
    ∃ n : ℤ, -180 < a.angleTo b + 360 * n ∧ a.angleTo b + 360 * n ≤ 180 := by
  obtain ⟨ha1, ha2, ha3⟩ := C09_angle a
  obtain ⟨hb1, hb2, hb3⟩ := C09_angle b
  have hab : a.angleTo b = b.angle - a.angle := rfl
  refine ⟨?_, by linarith, by linarith, ?_⟩
  · have hrot : a.rotated (a.angleTo b) = Vec2.polar b.angle a.length := by
      have h5 := (C08_polar a.angle (a.angleTo b) a.length).2.1
      rw [ha3] at h5
      rw [h5, hab]; congr 1; ring
    rw [hrot]
    conv_rhs => rw [← hb3]
    rw [polar_eq, polar_eq]
    ext <;> simp <;> ring
  · rcases lt_or_ge 180 (a.angleTo b) with h | h
    · exact ⟨-1, by push_cast; constructor <;> linarith⟩
    · rcases lt_or_ge (-180) (a.angleTo b) with h' | h'
      · exact ⟨0, by push_cast; constructor <;> linarith⟩
      · exact ⟨1, by push_cast; constructor <;> linarith⟩

/-- **C09** is violated: the angle from (-1,-1) to (-1,1) is 270, outside (-180, 180] and not the smallest angle (-90). -/
theorem C09_angle_to_range_violated :
    (⟨-1, -1⟩ : Vec2 ℝ).angleTo ⟨-1, 1⟩ = 270 := by
  have hpi := Real.pi_pos
  have key : ∀ (v : Vec2 ℝ) (r θ : ℝ), 0 < r → θ ∈ Set.Ioc (-π) π → v.x = r * Real.cos θ →
      v.y = r * Real.sin θ → v.angle = θ * (180 / π) := by
    intro v r θ hr hθ hx hy
    change Complex.arg ⟨v.x, v.y⟩ * (180 / π) = _
    have : (⟨v.x, v.y⟩ : ℂ) = (r : ℂ) * (Complex.cos θ + Complex.sin θ * Complex.I) := by
      apply Complex.ext
      · simp [hx, ← Complex.ofReal_cos, ← Complex.ofReal_sin]
      · simp [hy, ← Complex.ofReal_cos, ← Complex.ofReal_sin]
    rw [this, Complex.arg_mul_cos_add_sin_mul_I hr hθ]
  have h2 : √2 * √2 = 2 := Real.mul_self_sqrt (by norm_num)
  have c1 : Real.cos (π - π / 4) = -(√2 / 2) := by rw [Real.cos_pi_sub, Real.cos_pi_div_four]
  have s1 : Real.sin (π - π / 4) = √2 / 2 := by rw [Real.sin_pi_sub, Real.sin_pi_div_four]
  have a1 : (⟨-1, 1⟩ : Vec2 ℝ).angle = (π - π / 4) * (180 / π) := by
    apply key _ (√2) _ (by positivity) (by constructor <;> linarith)
    · rw [c1]; simp only []; linarith
    · rw [s1]; simp only []; linarith
  have a2 : (⟨-1, -1⟩ : Vec2 ℝ).angle = (-(π - π / 4)) * (180 / π) := by
    apply key _ (√2) _ (by positivity) (by constructor <;> linarith)
    · rw [Real.cos_neg, c1]; simp only []; linarith
    · rw [Real.sin_neg, s1]; simp only []; linarith
  change (⟨-1, 1⟩ : Vec2 ℝ).angle - (⟨-1, -1⟩ : Vec2 ℝ).angle = 270
  rw [a1, a2]; field_simp; norm_num

end Planar
