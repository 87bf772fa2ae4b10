import Verif.Props.Affine
import Verif.Props.Trig
/- Exact versions of C09 (range of angle_to) and C18 (classification flags). -/
set_option linter.unusedSectionVars false
namespace Planar
open Real
namespace Affine
section
variable {K : Type} [Field K] [LinearOrder K] [IsStrictOrderedRing K]

theorem zero_of_lt_all {x : K} (h : ∀ eps > 0, |x| < eps) : x = 0 := by
  by_contra hne
  exact lt_irrefl _ (h _ (abs_pos.mpr hne))

theorem conformal_all (T : Affine K) : (∀ eps > 0, T.isConformal eps = true) ↔ T.a * T.b + T.d * T.e = 0 := by
  constructor
  · intro h
    refine zero_of_lt_all fun eps he => ?_
    simpa [isConformal] using h eps he
  · intro h eps he
    simp [isConformal, h, he]

theorem orthonormal_all (T : Affine K) : (∀ eps > 0, T.isOrthonormal eps = true) ↔
    T.a * T.b + T.d * T.e = 0 ∧ T.a * T.a + T.d * T.d = 1 ∧ T.b * T.b + T.e * T.e = 1 := by
  constructor
  · intro h
    have h' : ∀ eps > 0, |T.a * T.b + T.d * T.e| < eps ∧ |1 - (T.a * T.a + T.d * T.d)| < eps ∧
        |1 - (T.b * T.b + T.e * T.e)| < eps := by
      intro eps he
      have := h eps he
      simp only [isOrthonormal, isConformal, pyabs_eq_abs, Bool.and_eq_true, decide_eq_true_eq] at this
      exact ⟨this.1.1, this.1.2, this.2⟩
    have h1 := zero_of_lt_all fun eps he => (h' eps he).1
    have h2 := zero_of_lt_all fun eps he => (h' eps he).2.1
    have h3 := zero_of_lt_all fun eps he => (h' eps he).2.2
    exact ⟨h1, by linarith, by linarith⟩
  · rintro ⟨h1, h2, h3⟩ eps he
    simp [isOrthonormal, isConformal, h1, h2, h3, he]

/-- Rows orthogonal and equally long means columns orthogonal and equally long. -/
theorem rows_cols {a b d e s : K} (h1 : a * a + b * b = s) (h2 : d * d + e * e = s) (h3 : a * d + b * e = 0) :
    a * a + d * d = s ∧ b * b + e * e = s ∧ a * b + d * e = 0 := by
  have fr : (a * a + d * d - s) ^ 2 + 2 * (a * b + d * e) ^ 2 + (b * b + e * e - s) ^ 2 = 0 := by
    have : (a * a + d * d - s) ^ 2 + 2 * (a * b + d * e) ^ 2 + (b * b + e * e - s) ^ 2 =
        (a * a + b * b - s) ^ 2 + 2 * (a * d + b * e) ^ 2 + (d * d + e * e - s) ^ 2 := by ring
    rw [this, h1, h2, h3]; ring
  have a1 := sq_nonneg (a * a + d * d - s)
  have a2 := sq_nonneg (a * b + d * e)
  have a3 := sq_nonneg (b * b + e * e - s)
  have b1 : (a * a + d * d - s) ^ 2 = 0 := by linarith
  have b2 : (a * b + d * e) ^ 2 = 0 := by linarith
  have b3 : (b * b + e * e - s) ^ 2 = 0 := by linarith
  rw [sq_eq_zero_iff] at b1 b2 b3
  exact ⟨by linarith, by linarith, b2⟩

/-- **C18** exactly when a transform preserves all angles: `is_conformal` for every EPSILON, and besides, which the flag
does not test, both columns equally long. (Partial because the flag alone does not imply it, `C18_conformal_violated`.) -/
theorem C18_conformal_exact_partial (T : Affine K) :
    (∀ p q r, SameAngle (q - p) (r - p) (T.apply q - T.apply p) (T.apply r - T.apply p)) ↔
      (∀ eps > 0, T.isConformal eps = true) ∧ T.a * T.a + T.d * T.d = T.b * T.b + T.e * T.e := by
  constructor
  · intro h
    have h1 := (h ⟨0, 0⟩ ⟨1, 0⟩ ⟨0, 1⟩).1
    have h2 := (h ⟨0, 0⟩ ⟨1, 1⟩ ⟨1, -1⟩).1
    simp only [Vec2.dot, Vec2.length2, Vec2.sub_x, Vec2.sub_y, apply_x, apply_y] at h1 h2
    have e1 : T.a * T.d + T.b * T.e = 0 := by
      have : (T.a * T.d + T.b * T.e) ^ 2 = 0 := by linear_combination -h1
      exact pow_eq_zero_iff (two_ne_zero) |>.mp this
    have e2 : T.a * T.a + T.b * T.b - (T.d * T.d + T.e * T.e) = 0 := by
      have : 4 * (T.a * T.a + T.b * T.b - (T.d * T.d + T.e * T.e)) ^ 2 = 0 := by linear_combination -h2
      have : (T.a * T.a + T.b * T.b - (T.d * T.d + T.e * T.e)) ^ 2 = 0 := by linarith
      exact pow_eq_zero_iff (two_ne_zero) |>.mp this
    obtain ⟨r1, r2, r3⟩ := rows_cols (s := T.a * T.a + T.b * T.b) rfl (by linarith) e1
    exact ⟨(conformal_all T).mpr r3, by rw [r1, r2]⟩
  · rintro ⟨h1, h2⟩ p q r
    exact C18_conformal_equal_columns_partial T h1 h2 p q r

/-- **C18** `is_orthonormal` is true for every EPSILON exactly for the rigid motions. -/
theorem C18_orthonormal_iff (T : Affine K) : (∀ eps > 0, T.isOrthonormal eps = true) ↔
    ∀ p q, (T.apply p - T.apply q).length2 = (p - q).length2 := by
  constructor
  · exact fun h => (C18_orthonormal_exact_partial T h).1
  · intro h
    have h1 := h ⟨1, 0⟩ ⟨0, 0⟩
    have h2 := h ⟨0, 1⟩ ⟨0, 0⟩
    have h3 := h ⟨1, 1⟩ ⟨0, 0⟩
    simp only [Vec2.length2, Vec2.sub_x, Vec2.sub_y, apply_x, apply_y] at h1 h2 h3
    obtain ⟨r1, r2, r3⟩ := rows_cols (a := T.a) (b := T.b) (d := T.d) (e := T.e) (s := 1) (by linear_combination h1)
      (by linear_combination h2) (by linear_combination (h3 - h1 - h2) / 2)
    exact (orthonormal_all T).mpr ⟨r3, r1, r2⟩

/-- **C18** `is_rectilinear` is true for every EPSILON exactly for the transforms that keep axis-parallel segments
axis-parallel, among those with a determinant other than 0. -/
theorem C18_rectilinear_iff (T : Affine K) (hd : T.determinant ≠ 0) : (∀ eps > 0, T.isRectilinear eps = true) ↔
    ∀ p q : Vec2 K, p.x = q.x ∨ p.y = q.y → (T.apply p).x = (T.apply q).x ∨ (T.apply p).y = (T.apply q).y := by
  constructor
  · exact fun h p q hpq => C18_rectilinear_partial T h p q hpq
  · intro h eps he
    have h1 := h ⟨1, 0⟩ ⟨0, 0⟩ (Or.inr rfl)
    have h2 := h ⟨0, 1⟩ ⟨0, 0⟩ (Or.inl rfl)
    simp only [apply_x, apply_y] at h1 h2
    have h1' : T.a = 0 ∨ T.b = 0 := by
      rcases h1 with h1 | h1
      · left; linear_combination h1
      · right; linear_combination h1
    have h2' : T.d = 0 ∨ T.e = 0 := by
      rcases h2 with h2 | h2
      · left; linear_combination h2
      · right; linear_combination h2
    have hd' : T.a * T.e - T.b * T.d ≠ 0 := by simpa [determinant] using hd
    simp only [isRectilinear, pyabs_eq_abs, Bool.or_eq_true, Bool.and_eq_true, decide_eq_true_eq]
    rcases h1' with h1' | h1' <;> rcases h2' with h2' | h2'
    · exact absurd (by rw [h1', h2']; ring) hd'
    · left; rw [h1', h2']; simpa using he
    · right; rw [h1', h2']; simpa using he
    · exact absurd (by rw [h1', h2']; ring) hd'

/-- a shear preserves neither angles nor distances, a quarter turn with a translation both -/
example : (¬ ∀ p q : Vec2 ℚ, ((⟨1, 1, 0, 0, 1, 0⟩ : Affine ℚ).apply p - (⟨1, 1, 0, 0, 1, 0⟩ : Affine ℚ).apply q).length2 =
      (p - q).length2) ∧
    (∀ p q : Vec2 ℚ, ((⟨0, -1, 5, 1, 0, 7⟩ : Affine ℚ).apply p - (⟨0, -1, 5, 1, 0, 7⟩ : Affine ℚ).apply q).length2 =
      (p - q).length2) ∧ (⟨0, -1, 5, 1, 0, 7⟩ : Affine ℚ).determinant ≠ 0 := by
  refine ⟨?_, ?_, by norm_num [determinant]⟩
  · rw [← C18_orthonormal_iff, orthonormal_all]; norm_num
  · rw [← C18_orthonormal_iff, orthonormal_all]; norm_num

end
end Affine

/-- **C09** exactly when `a.angle_to(b)` leaves the documented range (-180, 180]: it is more than 180 when `a` is below the
x axis, `b` above it (or on its negative half) and `b` clockwise from `a`; it is at most -180 when `a` is above (or on the
negative half), `b` below and not clockwise from `a`, or `a` on the negative and `b` on the non-negative half of the
axis. -/
theorem C09_angle_to_exact_partial (a b : Vec2 ℝ) :
    (180 < a.angleTo b ↔ a.y < 0 ∧ (0 < b.y ∨ b.y = 0 ∧ b.x < 0) ∧ a.cross b < 0) ∧
    (a.angleTo b ≤ -180 ↔ (0 < a.y ∨ a.y = 0 ∧ a.x < 0) ∧ b.y < 0 ∧ 0 ≤ a.cross b ∨
      (a.y = 0 ∧ a.x < 0) ∧ b.y = 0 ∧ 0 ≤ b.x) := by
  have hpi := Real.pi_pos
  set α := Complex.arg ⟨a.x, a.y⟩ with hα
  set β := Complex.arg ⟨b.x, b.y⟩ with hβ
  have hang : a.angleTo b = (β - α) * (180 / π) := by
    change Complex.arg ⟨b.x, b.y⟩ * (180 / π) - Complex.arg ⟨a.x, a.y⟩ * (180 / π) = _
    ring
  have hk : (0 : ℝ) < 180 / π := by positivity
  have hk' : π * (180 / π) = 180 := by field_simp
  have e1 : 180 < a.angleTo b ↔ π < β - α := by
    rw [hang]; nth_rw 1 [← hk']; exact mul_lt_mul_iff_of_pos_right hk
  have e2 : a.angleTo b ≤ -180 ↔ β - α ≤ -π := by
    rw [hang, show (-180 : ℝ) = -π * (180 / π) by rw [neg_mul, hk']]; exact mul_le_mul_iff_of_pos_right hk
  have a1 := Complex.neg_pi_lt_arg ⟨a.x, a.y⟩
  have a2 := Complex.arg_le_pi ⟨a.x, a.y⟩
  have b1 := Complex.neg_pi_lt_arg ⟨b.x, b.y⟩
  have b2 := Complex.arg_le_pi ⟨b.x, b.y⟩
  rw [← hα] at a1 a2
  rw [← hβ] at b1 b2
  have ax := Complex.norm_mul_cos_arg ⟨a.x, a.y⟩
  have ay := Complex.norm_mul_sin_arg ⟨a.x, a.y⟩
  have bx := Complex.norm_mul_cos_arg ⟨b.x, b.y⟩
  have bY := Complex.norm_mul_sin_arg ⟨b.x, b.y⟩
  rw [← hα] at ax ay
  rw [← hβ] at bx bY
  simp only at ax ay bx bY
  have hcr : a.cross b = ‖(⟨a.x, a.y⟩ : ℂ)‖ * ‖(⟨b.x, b.y⟩ : ℂ)‖ * sin (β - α) := by
    rw [Real.sin_sub]; simp only [Vec2.cross]
    linear_combination -b.y * ax - ‖(⟨a.x, a.y⟩ : ℂ)‖ * cos α * bY + b.x * ay + ‖(⟨a.x, a.y⟩ : ℂ)‖ * sin α * bx
  -- signs of the angles
  have neg_iff : ∀ v : Vec2 ℝ, Complex.arg ⟨v.x, v.y⟩ < 0 ↔ v.y < 0 := fun v => Complex.arg_neg_iff
  have zero_iff : ∀ v : Vec2 ℝ, Complex.arg ⟨v.x, v.y⟩ = 0 ↔ 0 ≤ v.x ∧ v.y = 0 := fun v => Complex.arg_eq_zero_iff
  have pos_iff : ∀ v : Vec2 ℝ, 0 < Complex.arg ⟨v.x, v.y⟩ ↔ 0 < v.y ∨ v.y = 0 ∧ v.x < 0 := by
    intro v
    have h1 := neg_iff v
    have h2 := zero_iff v
    constructor
    · intro h
      have n1 : ¬ v.y < 0 := fun hh => by have := h1.mpr hh; linarith
      have n2 : ¬ (0 ≤ v.x ∧ v.y = 0) := fun hh => by have := h2.mpr hh; linarith
      rcases lt_trichotomy v.y 0 with h3 | h3 | h3
      · exact absurd h3 n1
      · right; exact ⟨h3, not_le.mp fun hh => n2 ⟨hh, h3⟩⟩
      · exact Or.inl h3
    · intro h
      rcases lt_trichotomy (Complex.arg ⟨v.x, v.y⟩) 0 with h3 | h3 | h3
      · have := h1.mp h3
        rcases h with h | h
        · linarith
        · linarith [h.1]
      · obtain ⟨h4, h5⟩ := h2.mp h3
        rcases h with h | h
        · linarith
        · linarith [h.2]
      · exact h3
  have npos : ∀ v : Vec2 ℝ, Complex.arg ⟨v.x, v.y⟩ ≠ 0 → 0 < ‖(⟨v.x, v.y⟩ : ℂ)‖ := by
    intro v hv
    rw [norm_pos_iff]
    intro h
    exact hv (by rw [h]; exact Complex.arg_zero)
  have pi_iff : α = π ↔ a.x < 0 ∧ a.y = 0 := Complex.arg_eq_pi_iff
  rw [e1, e2]
  constructor
  · constructor
    · intro h
      have h1 : α < 0 := by linarith
      have h2 : 0 < β := by linarith
      refine ⟨(neg_iff a).mp h1, (pos_iff b).mp h2, ?_⟩
      rw [hcr]
      have s : sin (β - α) < 0 := by
        have : sin (β - α) = -sin (β - α - π) := by rw [Real.sin_sub_pi]; ring
        rw [this, neg_lt_zero]
        exact Real.sin_pos_of_pos_of_lt_pi (by linarith) (by linarith)
      exact mul_neg_of_pos_of_neg (mul_pos (npos a h1.ne) (npos b h2.ne')) s
    · rintro ⟨h1, h2, h3⟩
      have h1' : α < 0 := (neg_iff a).mpr h1
      have h2' : 0 < β := (pos_iff b).mpr h2
      by_contra hc
      rw [hcr] at h3
      have s : 0 ≤ sin (β - α) := Real.sin_nonneg_of_nonneg_of_le_pi (by linarith) (by linarith)
      have := mul_nonneg (mul_nonneg (norm_nonneg (⟨a.x, a.y⟩ : ℂ)) (norm_nonneg (⟨b.x, b.y⟩ : ℂ))) s
      linarith
  · constructor
    · intro h
      have h1 : 0 < α := by linarith
      rcases lt_or_ge β 0 with h2 | h2
      · left
        refine ⟨(pos_iff a).mp h1, (neg_iff b).mp h2, ?_⟩
        rw [hcr]
        have s : 0 ≤ sin (β - α) := by
          have : sin (β - α) = sin (β - α + 2 * π) := by rw [Real.sin_add_two_pi]
          rw [this]
          exact Real.sin_nonneg_of_nonneg_of_le_pi (by linarith) (by linarith)
        exact mul_nonneg (mul_nonneg (norm_nonneg _) (norm_nonneg _)) s
      · right
        have hb0 : β = 0 := le_antisymm (by linarith) h2
        obtain ⟨h3, h4⟩ := pi_iff.mp (by linarith)
        obtain ⟨h5, h6⟩ := (zero_iff b).mp hb0
        exact ⟨⟨h4, h3⟩, h6, h5⟩
    · rintro (⟨h1, h2, h3⟩ | ⟨⟨h1, h2⟩, h3, h4⟩)
      · have h1' : 0 < α := (pos_iff a).mpr h1
        have h2' : β < 0 := (neg_iff b).mpr h2
        by_contra hc
        rw [hcr] at h3
        have s : sin (β - α) < 0 := Real.sin_neg_of_neg_of_neg_pi_lt (by linarith) (by linarith)
        have := mul_neg_of_pos_of_neg (mul_pos (npos a h1'.ne') (npos b h2'.ne)) s
        linarith
      · have h1' : α = π := pi_iff.mpr ⟨h2, h1⟩
        have h2' : β = 0 := (zero_iff b).mpr ⟨h4, h3⟩
        rw [h1', h2']; linarith

end Planar
