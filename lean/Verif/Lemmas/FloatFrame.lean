import Verif.Lemmas.FloatUnit
/- Directions, normals and projections of lines, rays and segments in double precision. -/
set_option linter.unusedSectionVars false
namespace Planar
open Spec

theorem unit_of_div {x y : ℝ} (h : 0 < √(x * x + y * y)) :
    x / √(x * x + y * y) * (x / √(x * x + y * y)) + y / √(x * x + y * y) * (y / √(x * x + y * y)) = 1 := by
  have hm := Real.mul_self_sqrt (add_nonneg (mul_self_nonneg x) (mul_self_nonneg y))
  generalize √(x * x + y * y) = r at *
  field_simp
  nlinarith

theorem unit_comp {c s : ℝ} (h : c * c + s * s = 1) : |c| ≤ 1 := by
  have := abs_le_norm c s
  rwa [h, Real.sqrt_one] at this

/-- What is near a unit vector has nearly length one. -/
theorem near_sq {c s p q k u η : ℝ} (h : c * c + s * s = 1) (hu : 0 ≤ u) (hu' : u ≤ 1 / 1000) (hη : 0 ≤ η)
    (hη' : 1000 * η ≤ u) (hk : 0 ≤ k) (hk' : k ≤ 8) (hp : |p - c| ≤ k * u * |c| + η) (hq : |q - s| ≤ k * u * |s| + η) :
    |p * p + q * q - 1| ≤ (2 * k + 1) * u := by
  have c1 := unit_comp h
  have s1 : |s| ≤ 1 := unit_comp (c := s) (s := c) (by linarith)
  have one : ∀ p c : ℝ, |c| ≤ 1 → |p - c| ≤ k * u * |c| + η → |p * p - c * c| ≤ 2 * k * u * (c * c) + 3 / 10 * u := by
    intro p c c1 hp
    have e : p * p - c * c = 2 * c * (p - c) + (p - c) * (p - c) := by ring
    rw [e]
    refine (abs_add_le _ _).trans ?_
    rw [abs_mul, abs_mul, abs_mul, abs_two, ← abs_mul_abs_self c]
    have c0 := abs_nonneg c
    have d0 := abs_nonneg (p - c)
    generalize |p - c| = d at *
    generalize |c| = C at *
    have kuC : k * u * C ≤ 8 * u := by
      have : k * u * C ≤ 8 * u * 1 := mul_le_mul (mul_le_mul_of_nonneg_right hk' hu) c1 c0 (by linarith)
      linarith
    have hd : d ≤ 801 / 100 * u := by linarith
    have h1 : C * d ≤ C * (k * u * C + η) := mul_le_mul_of_nonneg_left hp c0
    have h2 : C * η ≤ 1 * η := mul_le_mul_of_nonneg_right c1 hη
    have h3 : d * d ≤ (801 / 100 * u) * (801 / 100 * u) := mul_self_le_mul_self d0 hd
    have h4 : u * u ≤ 1 / 1000 * u := mul_le_mul_of_nonneg_right hu' hu
    nlinarith
  have h1 := one p c c1 hp
  have h2 := one q s s1 hq
  have t := abs_add_le (p * p - c * c) (q * q - s * s)
  rw [show p * p - c * c + (q * q - s * s) = p * p + q * q - 1 by linarith] at t
  have e : 2 * k * u * (c * c) + 2 * k * u * (s * s) = 2 * k * u := by rw [← mul_add, h, mul_one]
  linarith

/-- Near a unit vector `(c, s)`. -/
def NearVec (k c s : ℝ) (n : Vec2 Double) : Prop :=
  |n.x.real - c| ≤ k * uR * |c| + ηR ∧ |n.y.real - s| ≤ k * uR * |s| + ηR

theorem NearVec.sq {k c s : ℝ} {n : Vec2 Double} (h : NearVec k c s n) (hcs : c * c + s * s = 1) (hk : 0 ≤ k) (hk' : k ≤ 8) :
    |n.x.real * n.x.real + n.y.real * n.y.real - 1| ≤ (2 * k + 1) * uR :=
  near_sq hcs uR_pos.le uR_small ηR_pos ηR_small hk hk' h.1 h.2

theorem NearVec.mono {k k' c s : ℝ} {n : Vec2 Double} (h : NearVec k c s n) (hk : k ≤ k') : NearVec k' c s n := by
  have hu := uR_pos.le
  constructor
  · exact h.1.trans (by have := mul_le_mul_of_nonneg_right hk (mul_nonneg hu (abs_nonneg c)); linarith)
  · exact h.2.trans (by have := mul_le_mul_of_nonneg_right hk (mul_nonneg hu (abs_nonneg s)); linarith)

theorem NearVec.right {k c s : ℝ} {n : Vec2 Double} (h : NearVec k c s n) : NearVec k s (-c) ⟨n.y, -n.x⟩ := by
  refine ⟨h.2, ?_⟩
  show |(-n.x).real - -c| ≤ _
  rw [real_neg, show -n.x.real - -c = -(n.x.real - c) by ring, abs_neg, abs_neg]
  exact h.1

theorem NearVec.left {k c s : ℝ} {n : Vec2 Double} (h : NearVec k c s n) : NearVec k (-s) c ⟨-n.y, n.x⟩ := by
  refine ⟨?_, h.1⟩
  show |(-n.y).real - -s| ≤ _
  rw [real_neg, show -n.y.real - -s = -(n.y.real - s) by ring, abs_neg, abs_neg]
  exact h.2

theorem NearVec.small {k c s : ℝ} {n : Vec2 Double} (h : NearVec k c s n) (hcs : c * c + s * s = 1) (hk : 0 ≤ k)
    (hk' : k ≤ 8) : |n.x.real| ≤ 2 ^ 1 ∧ |n.y.real| ≤ 2 ^ 1 := by
  have c1 := unit_comp hcs
  have s1 : |s| ≤ 1 := unit_comp (c := s) (s := c) (by linarith)
  have hu := uR_pos
  have hu' := uR_small
  have hη := ηR_small
  have one : ∀ p c : ℝ, |c| ≤ 1 → |p - c| ≤ k * uR * |c| + ηR → |p| ≤ 2 ^ 1 := by
    intro p c c1 hp
    have h1 := abs_sub_abs_le_abs_sub p c
    have c0 := abs_nonneg c
    have kuC : k * uR * |c| ≤ 8 * uR * 1 := mul_le_mul (mul_le_mul_of_nonneg_right hk' hu.le) c1 c0 (by linarith)
    rw [pow_one]
    linarith
  exact ⟨one _ _ c1 h.1, one _ _ s1 h.2⟩

theorem NearDir.unit {x y : ℝ} {n : Vec2 Double} (h : NearDir x y n) :
    x / √(x * x + y * y) * (x / √(x * x + y * y)) + y / √(x * x + y * y) * (y / √(x * x + y * y)) = 1 := unit_of_div h.pos

theorem NearDir.vec {x y : ℝ} {n : Vec2 Double} (h : NearDir x y n) :
    NearVec 5 (x / √(x * x + y * y)) (y / √(x * x + y * y)) n := ⟨h.px, h.py⟩

/-- The product of a vector (with a relative error) and a vector near a unit vector, computed. -/
theorem dot_double {t n : Vec2 Double} {x y c s : ℝ} (hcs : c * c + s * s = 1) (hx : |t.x.real - x| ≤ uR * |x|)
    (hy : |t.y.real - y| ≤ uR * |y|) (hn : NearVec 8 c s n) (bx : |t.x.real| ≤ 2 ^ 1000) (by' : |t.y.real| ≤ 2 ^ 1000) :
    |(t.dot n).real - (x * c + y * s)| ≤ 12 * uR * √(x * x + y * y) + 4 * ηR := by
  obtain ⟨n1, n2⟩ := hn.small hcs (by norm_num) le_rfl
  have hA := mul_ok t.x n.x ((mul_pow_le bx n1).trans (pow_le_real (by norm_num)))
  have hB := mul_ok t.y n.y ((mul_pow_le by' n2).trans (pow_le_real (by norm_num)))
  have bS := add_pow (slack_pow hA (mul_pow_le bx n1)) (slack_pow hB (mul_pow_le by' n2))
  have hD := add_ok (t.x * n.x) (t.y * n.y) (bS.trans (pow_le_real (by norm_num)))
  exact dot_err uR_pos.le uR_small ηR_pos ηR_small hcs hx hy hn.1 hn.2 hA hB hD

theorem dot_comm_double (t n : Vec2 Double) : t.dot n = n.dot t := by
  simp only [Vec2.dot]
  rw [RoundedArith.mul_comm t.x, RoundedArith.mul_comm t.y]

/-- Near-unit vectors are not null. -/
theorem near_not_null {eps : Double} {n : Vec2 Double} {k c s : ℝ} (h : NearVec k c s n) (hcs : c * c + s * s = 1)
    (hk : 0 ≤ k) (hk' : k ≤ 8) (h0 : 0 ≤ eps.real) (he : eps.real ≤ 1 / 2) : n.isNull eps = false := by
  have hsq := h.sq hcs hk hk'
  obtain ⟨n1, n2⟩ := h.small hcs hk hk'
  obtain ⟨a, b, ha, hb, ht, -, -⟩ := length2_parts n (n1.trans (pow_le_real (by norm_num))) (n2.trans (pow_le_real (by norm_num)))
  have hq := sq_err uR_pos.le ηR_pos ha hb ht
  have hee : eps.real * eps.real ≤ 1 / 4 := by nlinarith
  have he0 := mul_self_nonneg eps.real
  have hE := mul_ok eps eps (by
    rw [abs_of_nonneg he0]
    calc eps.real * eps.real ≤ 1 := by linarith
      _ ≤ 2 ^ 1023 := one_le_pow₀ (by norm_num))
  rw [abs_of_nonneg he0] at hE
  have hu := uR_pos
  have hu' := uR_small
  have hη := ηR_small
  have hη0 := ηR_pos
  simp only [Vec2.isNull, eps2, decide_eq_false_iff_not, not_lt]
  apply real_le.mp
  clear ha hb ht
  generalize n.x.real * n.x.real + n.y.real * n.y.real = S at *
  obtain ⟨s1, s2⟩ := abs_le.mp hsq
  obtain ⟨q1, q2⟩ := abs_le.mp hq
  obtain ⟨e1, e2⟩ := abs_le.mp hE
  have hS : |S - 1| ≤ 17 / 1000 := by
    refine hsq.trans ?_
    have : (2 * k + 1) * uR ≤ 17 * uR := mul_le_mul_of_nonneg_right (by linarith) hu.le
    linarith
  obtain ⟨r1, r2⟩ := abs_le.mp hS
  have h1 : (2 * uR + uR * uR) * S ≤ 3 / 1000 * 2 :=
    mul_le_mul (by nlinarith) (by linarith) (by linarith) (by norm_num)
  have h2 : (3 + 2 * uR) * ηR ≤ 4 * ηR := mul_le_mul_of_nonneg_right (by linarith) hη0
  have h3 : uR * (eps.real * eps.real) ≤ 1 / 1000 * (eps.real * eps.real) := mul_le_mul_of_nonneg_right hu' he0
  linarith

/-- The null vector is null. -/
theorem null_is_null {eps : Double} (he : 1 / 2 ^ 500 ≤ eps.real) (he1 : eps.real ≤ 1 / 2) :
    (Vec2.null : Vec2 Double).isNull eps = true := by
  obtain ⟨ep, heps⟩ := eps_small he
  have he0 := mul_self_nonneg eps.real
  have hee : eps.real * eps.real ≤ 1 / 4 := by nlinarith
  have hE := mul_ok eps eps (by
    rw [abs_of_nonneg he0]
    calc eps.real * eps.real ≤ 1 := by linarith
      _ ≤ 2 ^ 1023 := one_le_pow₀ (by norm_num))
  rw [abs_of_nonneg he0] at hE
  have hu := uR_pos
  have hu' := uR_small
  have hη0 : 0 < ηR := by unfold ηR; positivity
  simp only [Vec2.isNull, eps2, decide_eq_true_eq]
  have e : (Vec2.null : Vec2 Double).length2 = 0 := by
    simp only [Vec2.null, Vec2.length2, RoundedArith.mul_zero, RoundedArith.add_zero]
  rw [e]
  apply real_lt.mp
  rw [real_zero]
  obtain ⟨e1, e2⟩ := abs_le.mp hE
  have h3 : uR * (eps.real * eps.real) ≤ 1 / 1000 * (eps.real * eps.real) := mul_le_mul_of_nonneg_right hu' he0
  linarith

variable [PyMath Double] [SqrtOk]

/-- The `direction` setter. -/
theorem setDirection_cases (eps : Double) (s : Lin Double) (v : Vec2 Double) (hv : FiniteVec v) (he : 1 / 2 ^ 500 ≤ eps.real)
    (he1 : eps.real ≤ 1 / 2) :
    (s.setDirection eps v = (.error .valueError, s) ∧ (v.length ≤ eps ∨ v.length2 = dinf)) ∨
    (eps < v.length ∧ v.length2 ≠ dinf ∧ |v.length.real - √(v.x.real * v.x.real + v.y.real * v.y.real)| ≤
        31 / 10 * uR * √(v.x.real * v.x.real + v.y.real * v.y.real) ∧
      ∃ n, NearDir v.x.real v.y.real n ∧ s.setDirection eps v = (.ok (), ⟨n, ⟨n.y, -n.x⟩⟩)) := by
  have ep := (eps_small he).1
  have hef : eps.Finite := finite_of (M := 2 ^ 1) (pow_lt_real (by norm_num)) (by
    rw [abs_of_pos ep, pow_one]; linarith)
  have hc := Vec2.copy_fl v
  rcases normalized_cases eps v hv he hef with ⟨h1, h2⟩ | ⟨h1, h2, h3, n, hn, hd⟩
  · left
    refine ⟨?_, h2⟩
    simp only [Lin.setDirection, hc, h1, null_is_null he he1, if_true]
  · right
    refine ⟨h1, h2, h3, n, hd, ?_⟩
    have hnn := near_not_null hd.vec hd.unit (by norm_num) (by norm_num) ep.le he1
    simp only [Lin.setDirection, hc, hn, hnn, Bool.false_eq_true, if_false]
    congr 2
    show (⟨- -n.y, -n.x⟩ : Vec2 Double) = _
    rw [RoundedArith.neg_neg]

/-- The `normal` setter. -/
theorem setNormal_cases (eps : Double) (s : Lin Double) (v : Vec2 Double) (hv : FiniteVec v) (he : 1 / 2 ^ 500 ≤ eps.real)
    (he1 : eps.real ≤ 1 / 2) :
    (s.setNormal eps v = (.error .valueError, s) ∧ (v.length ≤ eps ∨ v.length2 = dinf)) ∨
    (eps < v.length ∧ v.length2 ≠ dinf ∧ |v.length.real - √(v.x.real * v.x.real + v.y.real * v.y.real)| ≤
        31 / 10 * uR * √(v.x.real * v.x.real + v.y.real * v.y.real) ∧
      ∃ n, NearDir v.x.real v.y.real n ∧ s.setNormal eps v = (.ok (), ⟨⟨-n.y, n.x⟩, n⟩)) := by
  have ep := (eps_small he).1
  have hef : eps.Finite := finite_of (M := 2 ^ 1) (pow_lt_real (by norm_num)) (by
    rw [abs_of_pos ep, pow_one]; linarith)
  have hc := Vec2.copy_fl v
  rcases normalized_cases eps v hv he hef with ⟨h1, h2⟩ | ⟨h1, h2, h3, n, hn, hd⟩
  · left
    refine ⟨?_, h2⟩
    simp only [Lin.setNormal, hc, h1, null_is_null he he1, if_true]
  · right
    refine ⟨h1, h2, h3, n, hd, ?_⟩
    have hnn := near_not_null hd.vec hd.unit (by norm_num) (by norm_num) ep.le he1
    simp only [Lin.setNormal, hc, hn, hnn, Bool.false_eq_true, if_false]
    rfl

end Planar
