import Verif.Lemmas.FloatVec
import Verif.Spec.DoubleVec
import Verif.Props.FloatAffine
import Verif.Props.FloatLines
/- Property C80: vectors in double precision. -/
set_option linter.unusedSectionVars false
namespace Planar
open Spec

/-- **C80** `dot` and `cross` up to `2 ^ -51` of the sum of the absolute values of their two terms. -/
theorem C80_products (v w : Vec2 Double) (hv : Within (2 ^ 500) v) (hw : Within (2 ^ 500) w) :
    |(v.dot w).real - (v.x.real * w.x.real + v.y.real * w.y.real)| ≤
      1 / 2 ^ 51 * (|v.x.real * w.x.real| + |v.y.real * w.y.real|) + 1 / 2 ^ 1072 ∧
    |(v.cross w).real - (v.x.real * w.y.real - v.y.real * w.x.real)| ≤
      1 / 2 ^ 51 * (|v.x.real * w.y.real| + |v.y.real * w.x.real|) + 1 / 2 ^ 1072 := by
  have p : ∀ a b : ℝ, 0 ≤ |a| + |b| := fun a b => add_nonneg (abs_nonneg _) (abs_nonneg _)
  exact ⟨near_round (p _ _) (dot_in (mul_pow_le hv.1 hw.1) (mul_pow_le hv.2 hw.2)).1 (by norm_num) (by norm_num),
    near_round (p _ _) (cross_in (mul_pow_le hv.1 hw.2) (mul_pow_le hv.2 hw.1)) (by norm_num) (by norm_num)⟩

theorem within_510 {v : Vec2 Double} (hv : Within (2 ^ 500) v) : |v.x.real| ≤ 2 ^ 510 ∧ |v.y.real| ≤ 2 ^ 510 :=
  ⟨hv.1.trans (pow_le_real (by norm_num)), hv.2.trans (pow_le_real (by norm_num))⟩

/-- **C80** the comparisons `<`, `<=`, `>` and `>=` are those of the lengths, for lengths that differ by more than a relative
`2 ^ -50`. -/
theorem C80_order (v w : Vec2 Double) (hv : Within (2 ^ 500) v) (hw : Within (2 ^ 500) w) (h0 : 1 / 2 ^ 500 ≤ vlen (toReal w))
    (h : vlen (toReal v) ≤ vlen (toReal w) * (1 - 1 / 2 ^ 50)) :
    v.lt w = true ∧ v.le w = true ∧ v.gt w = false ∧ v.ge w = false ∧
    w.gt v = true ∧ w.ge v = true ∧ w.lt v = false ∧ w.le v = false := by
  obtain ⟨w0, hη⟩ := eps_small h0
  have k : v.length2 < w.length2 := by
    apply real_lt.mp
    exact sq_lt uR_pos uR_small ηR_pos (Real.sqrt_nonneg _) (length2_near (within_510 hv).1 (within_510 hv).2)
      (length2_near (within_510 hw).1 (within_510 hw).2) w0 hη (margin_low w0.le h)
  simp only [Vec2.lt, Vec2.le, Vec2.gt, Vec2.ge, gt_iff_lt, ge_iff_le, k, k.le, not_lt.mpr k.le, not_le.mpr k, decide_true,
    decide_false, and_self]

/-- **C80** `is_null` up to a relative error `2 ^ -50` of EPSILON, and `almost_equals` likewise: is the distance less than
EPSILON? -/
theorem C80_null (eps : Double) (he : 1 / 2 ^ 500 ≤ eps.real) (he' : eps.real ≤ 2 ^ 500) (v w : Vec2 Double)
    (hv : Within (2 ^ 500) v) (hw : Within (2 ^ 500) w) :
    (vlen (toReal v) ≤ eps.real * (1 - 1 / 2 ^ 50) → v.isNull eps = true) ∧
    (eps.real * (1 + 1 / 2 ^ 50) ≤ vlen (toReal v) → v.isNull eps = false) ∧
    (gap (toReal v) (toReal w) ≤ eps.real * (1 - 1 / 2 ^ 50) → v.almostEquals eps w = true) ∧
    (eps.real * (1 + 1 / 2 ^ 50) ≤ gap (toReal v) (toReal w) → v.almostEquals eps w = false) := by
  obtain ⟨e0, hη⟩ := eps_small he
  have hu := uR_pos
  have hE := square_near (a := eps) (by rw [abs_of_pos e0]; exact he'.trans (pow_le_real (by norm_num)))
  have both : ∀ (t : Double) (r : ℝ), 0 ≤ r → |t.real - r * r| ≤ 5 * uR * (r * r) + 4 * ηR →
      (r ≤ eps.real * (1 - 1 / 2 ^ 50) → t < eps * eps) ∧ (eps.real * (1 + 1 / 2 ^ 50) ≤ r → ¬ t < eps * eps) := by
    intro t r r0 ht
    refine ⟨fun h => real_lt.mp (sq_lt hu uR_small ηR_pos r0 ht hE e0 hη (margin_low e0.le h)), fun h => ?_⟩
    have hr : eps.real ≤ r := by
      have := mul_pos hu e0
      rw [u50] at h
      clear he'
      linarith
    have hrr : uR * (eps.real * eps.real) ≤ uR * (r * r) := mul_le_mul_of_nonneg_left (mul_self_le_mul_self e0.le hr) hu.le
    exact not_lt.mpr (real_lt.mp (sq_lt hu uR_small ηR_pos e0.le hE ht (e0.trans_le hr) (hη.trans hrr)
      (margin_high e0.le h))).le
  obtain ⟨a, b⟩ := both _ _ (Real.sqrt_nonneg _) (length2_near (within_510 hv).1 (within_510 hv).2)
  obtain ⟨c, d⟩ := both _ _ (Real.sqrt_nonneg _) (gap2_near (n := 500) (by norm_num) hv hw)
  refine ⟨fun h => ?_, fun h => ?_, fun h => ?_, fun h => ?_⟩
  · simp only [Vec2.isNull, eps2, decide_eq_true_eq]; exact a h
  · simp only [Vec2.isNull, eps2, decide_eq_false_iff_not]; exact b h
  · simp only [Vec2.almostEquals, eps2, decide_eq_true_eq]; exact c h
  · simp only [Vec2.almostEquals, eps2, decide_eq_false_iff_not]; exact d h

/-- **C80** `lerp` up to rounding, component by component. -/
theorem C80_lerp (v w : Vec2 Double) (t : Double) (hv : Within (2 ^ 500) v) (hw : Within (2 ^ 500) w)
    (ht : |t.real| ≤ 2 ^ 400) :
    |(v.lerp w t).x.real - (v.x.real * (1 - t.real) + w.x.real * t.real)| ≤
      1 / 2 ^ 51 * (|v.x.real * (1 - t.real)| + |w.x.real * t.real|) + 1 / 2 ^ 1072 ∧
    |(v.lerp w t).y.real - (v.y.real * (1 - t.real) + w.y.real * t.real)| ≤
      1 / 2 ^ 51 * (|v.y.real * (1 - t.real)| + |w.y.real * t.real|) + 1 / 2 ^ 1072 := by
  have t1 : |1 - t.real| ≤ 2 ^ 401 := by
    rw [sub_eq_add_neg]
    exact add_pow (n := 400) (by rw [abs_one]; exact one_le_pow₀ (by norm_num)) (by rw [abs_neg]; exact ht)
  have s := sub_ok 1 t (by rw [real_one]; exact t1.trans (pow_le_real (by norm_num)))
  rw [real_one] at s
  have sb : |(1 - t).real| ≤ 2 ^ 402 := slack_pow (s.trans (by have := ηR_pos; linarith)) t1
  have one : ∀ x a : Double, |x.real| ≤ 2 ^ 500 → |a.real| ≤ 2 ^ 500 →
      |(x * (1 - t) + a * t).real - (x.real * (1 - t.real) + a.real * t.real)| ≤
        1 / 2 ^ 51 * (|x.real * (1 - t.real)| + |a.real * t.real|) + 1 / 2 ^ 1072 := by
    intro x a hx ha
    have k := (dot_in (x := x) (a := 1 - t) (y := a) (d := t) ((mul_pow_le hx sb).trans (pow_le_real (by norm_num)))
      ((mul_pow_le ha ht).trans (pow_le_real (by norm_num)))).1
    have d : |x.real * (1 - t).real - x.real * (1 - t.real)| ≤ uR * |x.real * (1 - t.real)| := by
      rw [← mul_sub, abs_mul, abs_mul]
      calc |x.real| * |(1 - t).real - (1 - t.real)| ≤ |x.real| * (uR * |1 - t.real|) :=
            mul_le_mul_of_nonneg_left s (abs_nonneg _)
        _ = _ := by ring
    have g := abs_sub_abs_le_abs_sub (x.real * (1 - t).real) (x.real * (1 - t.real))
    have tri := abs_sub_le (x * (1 - t) + a * t).real (x.real * (1 - t).real + a.real * t.real)
      (x.real * (1 - t.real) + a.real * t.real)
    rw [add_sub_add_right_eq_sub] at tri
    have p := abs_nonneg (x.real * (1 - t.real))
    have q := abs_nonneg (a.real * t.real)
    have hu := uR_pos
    have h1 : uR * |x.real * (1 - t.real)| ≤ 1 / 1000 * |x.real * (1 - t.real)| := mul_le_mul_of_nonneg_right uR_small p
    have h2 : uR * |x.real * (1 - t).real| ≤ uR * (1001 / 1000 * |x.real * (1 - t.real)|) :=
      mul_le_mul_of_nonneg_left (by linarith) hu.le
    have h3 := mul_nonneg hu.le p
    have h4 := mul_nonneg hu.le q
    have h5 := ηR_pos
    rw [u51, η1072]
    clear t1 sb hx ha ht
    linarith
  exact ⟨one _ _ hv.1 hw.1, one _ _ hv.2 hw.2⟩

/-- **C80** `lerp` is exact at both ends (of finite vectors). -/
theorem C80_lerp_ends (v w : Vec2 Double) (_hv : FiniteVec v) (_hw : FiniteVec w) : v.lerp w 0 = v ∧ v.lerp w 1 = w := by
  have h0 : (1 : Double) - 0 = 1 := by
    rw [RoundedArith.sub_def, show -(0 : Double) = 0 from Fl.ext (by rw [Fl.neg_val, Fl.zero_val, neg_zero]), RoundedArith.add_zero]
  have h1 : (1 : Double) - 1 = 0 := RoundedArith.sub_self _
  constructor
  · unfold Vec2.lerp
    simp only [h0, RoundedArith.mul_one, RoundedArith.mul_zero, RoundedArith.add_zero]
  · unfold Vec2.lerp
    simp only [h1, RoundedArith.mul_one, RoundedArith.mul_zero]
    rw [RoundedArith.add_comm 0, RoundedArith.add_comm 0, RoundedArith.add_zero, RoundedArith.add_zero]

theorem vlen_along {v : Vec2 ℝ} (hv : 0 < vlen v) (L : ℝ) : vlen (along v L) = |L| := by
  have e : v.x * (L / vlen v) * (v.x * (L / vlen v)) + v.y * (L / vlen v) * (v.y * (L / vlen v)) = L * L := by
    have hm : vlen v * vlen v = v.x * v.x + v.y * v.y :=
      Real.mul_self_sqrt (add_nonneg (mul_self_nonneg v.x) (mul_self_nonneg v.y))
    have h1 : v.x * (L / vlen v) * (v.x * (L / vlen v)) + v.y * (L / vlen v) * (v.y * (L / vlen v)) =
        (v.x * v.x + v.y * v.y) * (L * L) / (vlen v * vlen v) := by field_simp
    rw [h1, hm, mul_div_cancel_left₀ _ (by rw [← hm]; exact (mul_pos hv hv).ne')]
  show √(v.x * (L / vlen v) * (v.x * (L / vlen v)) + v.y * (L / vlen v) * (v.y * (L / vlen v))) = _
  rw [e, Real.sqrt_mul_self_eq_abs]

theorem inv_570 {x : ℝ} (hx : |x| ≤ 2 ^ 500) : 11 / 10 * (|x| * ηR) + ηR ≤ 1 / 2 ^ 570 := by
  have h1 := ηR_mul_le (k := 500) (by norm_num) hx
  have h2 : ηR * 1 ≤ 1 / 2 ^ (1075 - 500) := ηR_mul_le (k := 500) (by norm_num) (one_le_pow₀ (by norm_num))
  have e : 1 / (2 : ℝ) ^ 570 = 32 * (1 / 2 ^ (1075 - 500)) := by
    rw [show (1075 - 500 : ℕ) = 570 + 5 by norm_num, inv_pow_split (m := 570)]
    ring
  rw [e]
  rw [mul_comm] at h1
  have p : (0 : ℝ) < 1 / 2 ^ (1075 - 500) := by positivity
  generalize 1 / (2 : ℝ) ^ (1075 - 500) = w at *
  clear hx e
  linarith

theorem shadow_vlen (v o : Vec2 ℝ) : shadow v o =
    ⟨v.x * ((v.x * o.x + v.y * o.y) / (vlen v * vlen v)), v.y * ((v.x * o.x + v.y * o.y) / (vlen v * vlen v))⟩ := by
  have e : vlen v * vlen v = v.x * v.x + v.y * v.y :=
    Real.mul_self_sqrt (add_nonneg (mul_self_nonneg _) (mul_self_nonneg _))
  rw [e, shadow]

/-- **C80** `project` never raises. It returns the null vector or the projection of the other vector on this one up to a
`2 ^ -50` of the length of the other vector: the null vector if this vector is shorter than EPSILON by a relative `2 ^ -50`,
the projection if it is longer by that much. -/
theorem C80_project (eps : Double) (he : 1 / 2 ^ 200 ≤ eps.real) (he' : eps.real ≤ 2 ^ 500) (v o : Vec2 Double)
    (hv : Within (2 ^ 200) v) (ho : Within (2 ^ 200) o) :
    ∃ n, v.project eps o = .ok n ∧
      (n = Vec2.null ∨
        |n.x.real - (shadow (toReal v) (toReal o)).x| ≤ 1 / 2 ^ 50 * vlen (toReal o) + 1 / 2 ^ 810 ∧
        |n.y.real - (shadow (toReal v) (toReal o)).y| ≤ 1 / 2 ^ 50 * vlen (toReal o) + 1 / 2 ^ 810) ∧
      (vlen (toReal v) ≤ eps.real * (1 - 1 / 2 ^ 50) → n = Vec2.null) ∧
      (eps.real * (1 + 1 / 2 ^ 50) ≤ vlen (toReal v) →
        |n.x.real - (shadow (toReal v) (toReal o)).x| ≤ 1 / 2 ^ 50 * vlen (toReal o) + 1 / 2 ^ 810 ∧
        |n.y.real - (shadow (toReal v) (toReal o)).y| ≤ 1 / 2 ^ 50 * vlen (toReal o) + 1 / 2 ^ 810) := by
  obtain ⟨dec1, dec2⟩ := sq_decision he he' hv
  by_cases hL : eps * eps < v.length2
  · obtain ⟨q0, hq⟩ := vlen_200 ho
    obtain ⟨hA, hd⟩ := dot_vlen hv ho
    have hd' : |(v.dot o).real - (v.x.real * o.x.real + v.y.real * o.y.real)| ≤
        302 / 100 * uR * (vlen (toReal v) * vlen (toReal o)) + 8 * ηR := by
      have := ηR_pos
      have := mul_nonneg uR_pos.le (mul_nonneg (vlen_200 hv).1 q0)
      have e : v.dot o = v.x * o.x + v.y * o.y := rfl
      rw [e]
      clear hq he he' hv ho
      linarith
    obtain ⟨h0, hc⟩ := along_core he he' hv hL q0 (hq.trans (pow_le_real (by norm_num))) hA hd'
    have near : |(v.x * (v.dot o / v.length2)).real - (shadow (toReal v) (toReal o)).x| ≤ 1 / 2 ^ 50 * vlen (toReal o) + 1 / 2 ^ 810 ∧
        |(v.y * (v.dot o / v.length2)).real - (shadow (toReal v) (toReal o)).y| ≤ 1 / 2 ^ 50 * vlen (toReal o) + 1 / 2 ^ 810 := by
      have hq' : 73 / 10 * uR * vlen (toReal o) ≤ 1 / 2 ^ 50 * vlen (toReal o) := by
        rw [u50]
        have := mul_nonneg uR_pos.le q0
        clear hq he he' hv ho
        linarith
      rw [shadow_vlen]
      exact ⟨(hc _ (.inl rfl)).trans (add_le_add_left hq' _), (hc _ (.inr rfl)).trans (add_le_add_left hq' _)⟩
    refine ⟨⟨v.x * (v.dot o / v.length2), v.y * (v.dot o / v.length2)⟩, ?_, .inr near, fun h => ?_, fun _ => near⟩
    · simp only [Vec2.project, eps2, gt_iff_lt, hL, if_true, pydiv, h0, Bool.false_eq_true, if_false, bind, Except.bind, pure,
        Except.pure]
    · exact absurd (dec1 h) (not_lt.mpr hL.le)
  · refine ⟨Vec2.null, ?_, .inl rfl, fun _ => rfl, fun h => absurd (dec2 h) hL⟩
    simp only [Vec2.project, eps2, gt_iff_lt, hL, if_false]

/-- **C80** `reflect` never raises. It returns the null vector or the reflection up to a `2 ^ -48` of the length of the vector:
the null vector if the other vector is shorter than EPSILON by a relative `2 ^ -50`, the reflection if it is longer by that
much. -/
theorem C80_reflect (eps : Double) (he : 1 / 2 ^ 200 ≤ eps.real) (he' : eps.real ≤ 2 ^ 500) (v o : Vec2 Double)
    (hv : Within (2 ^ 200) v) (ho : Within (2 ^ 200) o) :
    ∃ n, v.reflect eps o = .ok n ∧
      (n = Vec2.null ∨
        |n.x.real - (mirror (toReal v) (toReal o)).x| ≤ 1 / 2 ^ 48 * vlen (toReal v) + 1 / 2 ^ 800 ∧
        |n.y.real - (mirror (toReal v) (toReal o)).y| ≤ 1 / 2 ^ 48 * vlen (toReal v) + 1 / 2 ^ 800) ∧
      (vlen (toReal o) ≤ eps.real * (1 - 1 / 2 ^ 50) → n = Vec2.null) ∧
      (eps.real * (1 + 1 / 2 ^ 50) ≤ vlen (toReal o) →
        |n.x.real - (mirror (toReal v) (toReal o)).x| ≤ 1 / 2 ^ 48 * vlen (toReal v) + 1 / 2 ^ 800 ∧
        |n.y.real - (mirror (toReal v) (toReal o)).y| ≤ 1 / 2 ^ 48 * vlen (toReal v) + 1 / 2 ^ 800) := by
  obtain ⟨dec1, dec2⟩ := sq_decision he he' ho
  have eL : o.length2 = o.x * o.x + o.y * o.y := rfl
  by_cases hL : eps * eps < o.length2
  · obtain ⟨q0, hq⟩ := vlen_200 hv
    obtain ⟨r0, hr⟩ := vlen_200 ho
    obtain ⟨hA, hd⟩ := dot_vlen hv ho
    have hd2 : |(v.x.real * o.x.real + v.y.real * o.y.real)| ≤ 2 ^ 402 :=
      hA.trans ((mul_le_mul hq hr r0 (by positivity)).trans_eq (by rw [← pow_add]))
    generalize hdd : v.x * o.x + v.y * o.y = d at *
    generalize hDD : v.x.real * o.x.real + v.y.real * o.y.real = D at *
    have hu := uR_pos
    have hu' := uR_small
    have hη := ηR_pos
    have rq0 := mul_nonneg q0 r0
    have urq := mul_nonneg hu.le rq0
    have urq' := mul_le_mul_of_nonneg_right hu' rq0
    have td := abs_sub_abs_le_abs_sub d.real D
    have dd : |2 * d.real| ≤ 2 ^ 410 := by
      have e : (2 : ℝ) ^ 410 = 64 * (2 ^ 402 * 4) := by
        rw [show (410 : ℕ) = 402 + 8 by norm_num, pow_add]
        generalize (2 : ℝ) ^ 402 = P
        ring
      have b2 : vlen (toReal v) * vlen (toReal o) ≤ 2 ^ 402 :=
        (mul_le_mul hq hr r0 (by positivity)).trans_eq (by rw [← pow_add])
      have p1 : (1 : ℝ) ≤ 2 ^ 402 := one_le_pow₀ (by norm_num)
      have η1 : ηR ≤ 1 := by
        have h := ηR_mul_le (z := 1) (k := 0) (by norm_num) (by norm_num)
        rw [mul_one] at h
        refine h.trans ((inv_pow_le (show 0 ≤ 1075 - 0 by norm_num)).trans (by norm_num))
      rw [e, abs_mul, abs_two]
      clear e hq hr he he' hv ho
      generalize (2 : ℝ) ^ 402 = P at *
      linarith
    have hm := mul_ok (1 + 1) d (by rw [real_two]; exact dd.trans (pow_le_real (by norm_num)))
    rw [real_two, abs_mul, abs_two] at hm
    have hA' : |2 * D| ≤ vlen (toReal o) * (2 * vlen (toReal v)) := by
      rw [abs_mul, abs_two]
      calc 2 * |D| ≤ 2 * (vlen (toReal v) * vlen (toReal o)) := by linarith only [hA]
        _ = _ := by ring
    have hd' : |((1 + 1) * d).real - 2 * D| ≤ 302 / 100 * uR * (vlen (toReal o) * (2 * vlen (toReal v))) + 8 * ηR := by
      have t := abs_sub_le ((1 + 1) * d).real (2 * d.real) (2 * D)
      have t2 : |2 * d.real - 2 * D| = 2 * |d.real - D| := by rw [← mul_sub, abs_mul, abs_two]
      rw [t2] at t
      have uη : uR * ηR ≤ 1 / 1000 * ηR := mul_le_mul_of_nonneg_right hu' hη
      have k : uR * (2 * |d.real|) ≤ uR * (2 * (1003 / 1000 * (vlen (toReal v) * vlen (toReal o)) + 301 / 100 * ηR)) := by
        refine mul_le_mul_of_nonneg_left ?_ hu.le
        linarith only [td, hd, hA, urq', urq, hη]
      have e : vlen (toReal o) * (2 * vlen (toReal v)) = 2 * (vlen (toReal v) * vlen (toReal o)) := by ring
      rw [e]
      linarith only [t, hm, hd, k, uη, urq, hη]
    have q3 : 2 * vlen (toReal v) ≤ 2 ^ 203 := by
      calc 2 * vlen (toReal v) ≤ 2 ^ 1 * 2 ^ 201 := by rw [pow_one]; exact mul_le_mul_of_nonneg_left hq (by norm_num)
        _ = 2 ^ 202 := by rw [← pow_add]
        _ ≤ _ := pow_le_real (by norm_num)
    obtain ⟨h0, hc⟩ := along_core he he' ho hL (by linarith only [q0]) q3 hA' hd'
    generalize hT : (1 + 1) * d / o.length2 = T at *
    have hs : ∀ x S : ℝ, x * (2 * S) = 2 * (x * S) := fun x S => by ring
    have comp : ∀ (a x : Double) (S : ℝ), |x.real| ≤ vlen (toReal v) → |a.real| ≤ vlen (toReal o) →
        |S| ≤ vlen (toReal v) →
        |(a * T).real - 2 * S| ≤ 73 / 10 * uR * (2 * vlen (toReal v)) + 1 / 2 ^ 810 →
        |(a * T - x).real - (2 * S - x.real)| ≤ 1 / 2 ^ 48 * vlen (toReal v) + 1 / 2 ^ 800 := by
      intro a x S hx ha hS h
      have t1 := abs_sub_abs_le_abs_sub ((a * T).real - x.real) (2 * S - x.real)
      have e : (a * T).real - x.real - (2 * S - x.real) = (a * T).real - 2 * S := by ring
      rw [e] at t1
      have b : |2 * S - x.real| ≤ 3 * vlen (toReal v) := by
        refine (abs_sub _ _).trans ?_
        rw [abs_mul, abs_two]
        linarith only [hS, hx]
      have z1 : 1 / (2 : ℝ) ^ 810 ≤ 1 := (inv_pow_le (show 0 ≤ 810 by norm_num)).trans (by norm_num)
      have z0 : 0 ≤ 1 / (2 : ℝ) ^ 810 := by positivity
      have ez : 1 / (2 : ℝ) ^ 800 = 1024 * (1 / 2 ^ 810) := by
        rw [show (810 : ℕ) = 10 + 800 by norm_num, inv_pow_split (m := 10)]
        have key : ∀ z : ℝ, z = 1024 * (1 / 2 ^ 10 * z) := by intro z; ring
        exact key _
      rw [ez]
      generalize 1 / (2 : ℝ) ^ 810 = z at *
      have uq := mul_nonneg hu.le q0
      have uq' := mul_le_mul_of_nonneg_right hu' q0
      have big : |(a * T).real - x.real| ≤ 2 ^ 1023 := by
        have : |(a * T).real - x.real| ≤ 4 * vlen (toReal v) + 1 := by linarith only [t1, h, b, uq', z1, q0]
        refine this.trans ?_
        have e : (2 : ℝ) ^ 204 = 8 * 2 ^ 201 := by
          rw [show (204 : ℕ) = 3 + 201 by norm_num, pow_add]; norm_num
        refine le_trans ?_ (pow_le_real (show 204 ≤ 1023 by norm_num))
        have p1 : (1 : ℝ) ≤ 2 ^ 201 := one_le_pow₀ (by norm_num)
        rw [e]
        linarith only [p1, hq]
      have s := sub_ok (a * T) x big
      have t2 := abs_sub_le (a * T - x).real ((a * T).real - x.real) (2 * S - x.real)
      rw [e] at t2
      have k : uR * |(a * T).real - x.real| ≤ uR * (4 * vlen (toReal v) + z) :=
        mul_le_mul_of_nonneg_left (by linarith only [t1, h, b, uq', q0]) hu.le
      have uz : uR * z ≤ 1 / 1000 * z := mul_le_mul_of_nonneg_right hu' z0
      have e48 : 1 / (2 : ℝ) ^ 48 = 4 * (8 * uR) := by rw [← u50]; norm_num
      rw [e48]
      linarith only [t2, s, h, k, uz, uq, z0]
    have rp : 0 < vlen (toReal o) := lt_of_lt_of_le (by positivity) (long_of_sq he he' ho hL).1
    have hox : |o.x.real| ≤ vlen (toReal o) := abs_le_norm _ _
    have hoy : |o.y.real| ≤ vlen (toReal o) := by rw [vlen, add_comm]; exact abs_le_norm _ _
    have hvx : |v.x.real| ≤ vlen (toReal v) := abs_le_norm _ _
    have hvy : |v.y.real| ≤ vlen (toReal v) := by rw [vlen, add_comm]; exact abs_le_norm _ _
    have hS : ∀ a : ℝ, |a| ≤ vlen (toReal o) → |a * (D / (vlen (toReal o) * vlen (toReal o)))| ≤ vlen (toReal v) := by
      intro a ha
      rw [abs_mul, abs_div, abs_of_pos (mul_pos rp rp)]
      calc |a| * (|D| / (vlen (toReal o) * vlen (toReal o))) ≤
            vlen (toReal o) * (vlen (toReal v) * vlen (toReal o) / (vlen (toReal o) * vlen (toReal o))) := by gcongr
        _ = vlen (toReal v) := by field_simp
    have hc' : ∀ x : Double, x = o.x ∨ x = o.y →
        |(x * T).real - 2 * (x.real * (D / (vlen (toReal o) * vlen (toReal o))))| ≤
          73 / 10 * uR * (2 * vlen (toReal v)) + 1 / 2 ^ 810 := by
      intro x hx
      have := hc x hx
      rwa [mul_div_assoc, hs] at this
    have eD : (toReal o).x * (toReal v).x + (toReal o).y * (toReal v).y = D := by
      rw [← hDD]; simp only [toReal]; ring
    have near : |(o.x * T - v.x).real - (mirror (toReal v) (toReal o)).x| ≤ 1 / 2 ^ 48 * vlen (toReal v) + 1 / 2 ^ 800 ∧
        |(o.y * T - v.y).real - (mirror (toReal v) (toReal o)).y| ≤ 1 / 2 ^ 48 * vlen (toReal v) + 1 / 2 ^ 800 := by
      rw [mirror, shadow_vlen, eD]
      exact ⟨comp _ _ _ hvx hox (hS _ hox) (hc' _ (.inl rfl)), comp _ _ _ hvy hoy (hS _ hoy) (hc' _ (.inr rfl))⟩
    refine ⟨⟨o.x * T - v.x, o.y * T - v.y⟩, ?_, .inr near, fun h => ?_, fun _ => near⟩
    · rw [eL] at hL h0 hT
      simp only [Vec2.reflect, eps2, gt_iff_lt, hL, if_true, pydiv, hdd, h0, Bool.false_eq_true, if_false, bind, Except.bind,
        pure, Except.pure, hT]
    · exact absurd (dec1 h) (not_lt.mpr hL.le)
  · refine ⟨Vec2.null, ?_, .inl rfl, fun _ => rfl, fun h => absurd (dec2 h) hL⟩
    rw [eL] at hL
    simp only [Vec2.reflect, eps2, gt_iff_lt, hL, if_false]

/-- Every real number that is not too large has a double next to it. -/
theorem double_near (r : ℝ) (h : |r| ≤ 2 ^ 1022) : ∃ d : Double, |d.real - r| ≤ uR * |r| + 2 * ηR := by
  have h0 : 0 < ηR := by unfold ηR; positivity
  obtain ⟨q, hq⟩ := exists_rat_near r (show 0 < ηR / 4 by linarith)
  have t := abs_sub_abs_le_abs_sub (q : ℝ) r
  rw [abs_sub_comm (q : ℝ)] at t
  have η1 : ηR ≤ 1 := by
    have h := ηR_mul_le (z := 1) (k := 0) (by norm_num) (by norm_num)
    rw [mul_one] at h
    exact h.trans ((inv_pow_le (show 0 ≤ 1075 - 0 by norm_num)).trans (by norm_num))
  have hr := rnd_ok (x := q) (by
    calc |(q : ℝ)| ≤ 2 ^ 1022 + 1 := by linarith only [t, hq, h, η1]
      _ ≤ 2 ^ 1022 + 2 ^ 1022 := add_le_add_right (one_le_pow₀ (show (1 : ℝ) ≤ 2 by norm_num)) _
      _ = 2 ^ 1023 := by
        have key : ∀ n : ℕ, (2 : ℝ) ^ n + 2 ^ n = 2 ^ (n + 1) := by intro n; ring
        exact key 1022)
  refine ⟨Fl.round double q, ?_⟩
  have hd : (Fl.round double q).real = ((double.rnd q : ℚ) : ℝ) := rfl
  rw [hd]
  have t2 := abs_sub_le ((double.rnd q : ℚ) : ℝ) (q : ℝ) r
  rw [abs_sub_comm (q : ℝ)] at t2
  have k : uR * |(q : ℝ)| ≤ uR * (|r| + ηR) := mul_le_mul_of_nonneg_left (by linarith only [t, hq, h0]) uR_pos.le
  have uη : uR * ηR ≤ 1 / 1000 * ηR := mul_le_mul_of_nonneg_right uR_small h0.le
  linarith only [t2, hr, k, uη, hq, h0]

/-- The assumptions on square roots and `math.hypot` can be met, both at once. -/
theorem hypotOk_exists : ∃ i : PyMath Double, @SqrtOk i ∧ @HypotOk i := by
  classical
  obtain ⟨i, hi⟩ := sqrtOk_exists
  have ex : ∀ a b : Double, ∃ d : Double, |a.real| ≤ 2 ^ 1000 → |b.real| ≤ 2 ^ 1000 →
      |d.real - √(a.real * a.real + b.real * b.real)| ≤
      1 / 2 ^ 52 * √(a.real * a.real + b.real * b.real) + 1 / 2 ^ 1074 := by
    intro a b
    by_cases h : |a.real| ≤ 2 ^ 1000 ∧ |b.real| ≤ 2 ^ 1000
    · have n0 := Real.sqrt_nonneg (a.real * a.real + b.real * b.real)
      have n1 := norm_within h.1 h.2
      have n2 : 3 / 2 * (2 : ℝ) ^ 1000 ≤ 2 ^ 1022 := by
        calc 3 / 2 * (2 : ℝ) ^ 1000 ≤ 2 ^ 1 * 2 ^ 1000 := mul_le_mul_of_nonneg_right (by norm_num) (by positivity)
          _ = 2 ^ 1001 := by rw [← pow_add]
          _ ≤ _ := pow_le_real (by norm_num)
      obtain ⟨d, hd⟩ := double_near (√(a.real * a.real + b.real * b.real)) (by rw [abs_of_nonneg n0]; exact n1.trans n2)
      refine ⟨d, fun _ _ => ?_⟩
      rw [abs_of_nonneg n0] at hd
      have e1 : 1 / (2 : ℝ) ^ 1074 = 2 * ηR := by
        unfold ηR
        have key : ∀ n : ℕ, 1 / (2 : ℝ) ^ n = 2 * (1 / 2 ^ (n + 1)) := by intro n; rw [inv_pow_split]; ring
        exact key 1074
      have e2 : 1 / (2 : ℝ) ^ 52 = 2 * uR := by norm_num [uR]
      rw [e1, e2]
      have := mul_nonneg uR_pos.le n0
      clear n1 n2 h e1 e2
      linarith
    · exact ⟨0, fun h1 h2 => absurd ⟨h1, h2⟩ h⟩
  choose f hf using ex
  let j : PyMath Double := { i with hypot := f }
  exact ⟨j, @SqrtOk.mk j hi.finite hi.infinite, @HypotOk.mk j (fun a b h1 h2 => hf a b h1 h2)⟩

/-- The assumption on `x ** 2` can be met too, together with the others. -/
theorem sqOk_exists : ∃ i : PyMath Double, @SqrtOk i ∧ @HypotOk i ∧ @SqOk i := by
  classical
  obtain ⟨i, hi, hh⟩ := hypotOk_exists
  have ex : ∀ a : Double, ∃ d : Double, |a.real| ≤ 2 ^ 511 →
      |d.real - a.real * a.real| ≤ 1 / 2 ^ 52 * (a.real * a.real) + 1 / 2 ^ 1074 := by
    intro a
    by_cases h : |a.real| ≤ 2 ^ 511
    · have n0 := mul_self_nonneg a.real
      have n1 : a.real * a.real ≤ 2 ^ 1022 := by
        rw [← abs_mul_abs_self, show (2 : ℝ) ^ 1022 = 2 ^ 511 * 2 ^ 511 by rw [← pow_add]]
        exact mul_le_mul h h (abs_nonneg _) (by positivity)
      obtain ⟨d, hd⟩ := double_near (a.real * a.real) (by rw [abs_of_nonneg n0]; exact n1)
      refine ⟨d, fun _ => ?_⟩
      rw [abs_of_nonneg n0] at hd
      have e1 : 1 / (2 : ℝ) ^ 1074 = 2 * ηR := by
        unfold ηR
        have key : ∀ n : ℕ, 1 / (2 : ℝ) ^ n = 2 * (1 / 2 ^ (n + 1)) := by intro n; rw [inv_pow_split]; ring
        exact key 1074
      have e2 : 1 / (2 : ℝ) ^ 52 = 2 * uR := by norm_num [uR]
      rw [e1, e2]
      have := mul_nonneg uR_pos.le n0
      clear n1 h e1 e2
      linarith
    · exact ⟨0, fun h1 => absurd h1 h⟩
  choose f hf using ex
  let j : PyMath Double := { i with sq := fun a => if a = dinf then some dinf else if |a.real| ≤ 2 ^ 511 then some (f a) else none }
  have big : ∀ a : Double, a = dinf → ¬ |a.real| ≤ 2 ^ 511 := by
    rintro _ rfl h
    have : |dinf.real| = 2 ^ 5000 := by
      show |((dinf.val : ℚ) : ℝ)| = _
      rw [dinf_val]; push_cast; rw [abs_of_pos (by positivity)]
    rw [this] at h
    exact absurd h (not_le.mpr (pow_lt_pow_right₀ (by norm_num) (by norm_num)))
  refine ⟨j, @SqrtOk.mk j hi.finite hi.infinite, @HypotOk.mk j hh.near, @SqOk.mk j (fun a h => ⟨f a, ?_, hf a h⟩) (fun a ha h => ?_) (if_pos rfl)⟩
  · show (if a = dinf then some dinf else if |a.real| ≤ 2 ^ 511 then some (f a) else none) = _
    rw [if_neg (fun e => big a e h), if_pos h]
  · show (if a = dinf then some dinf else if |a.real| ≤ 2 ^ 511 then some (f a) else none) = _
    have h1 : a ≠ dinf := by
      rintro rfl
      rw [Fl.Finite, dinf_val, abs_of_pos (by positivity)] at ha
      exact absurd ha (not_lt.mpr (pow_le_pow_right₀ (by norm_num) (by norm_num)))
    rw [if_neg h1, if_neg (not_le.mpr (lt_of_lt_of_le (pow_lt_pow_right₀ (by norm_num) (by norm_num)) h))]

variable [PyMath Double]

/-- **C80** `distance_to` up to a relative `2 ^ -51`. -/
theorem C80_distance [HypotOk] (v w : Vec2 Double) (hv : Within (2 ^ 500) v) (hw : Within (2 ^ 500) w) :
    |(v.distanceTo w).real - gap (toReal v) (toReal w)| ≤ 1 / 2 ^ 51 * gap (toReal v) (toReal w) + 1 / 2 ^ 1073 := by
  have one : ∀ a b : Double, |a.real| ≤ 2 ^ 500 → |b.real| ≤ 2 ^ 500 →
      |(a - b).real - (a.real - b.real)| ≤ uR * |a.real - b.real| ∧ |(a - b).real| ≤ 2 ^ 1000 := by
    intro a b ha hb
    have h1 : |a.real - b.real| ≤ 2 ^ (500 + 1) := by
      rw [sub_eq_add_neg]; exact add_pow ha (by rw [abs_neg]; exact hb)
    have h2 := sub_ok a b (h1.trans (pow_le_real (by norm_num)))
    have h3 := slack_pow (n := 500 + 1) (h2.trans (by have := ηR_pos; linarith)) h1
    exact ⟨h2, h3.trans (pow_le_real (by norm_num))⟩
  obtain ⟨x1, x2⟩ := one _ _ hv.1 hw.1
  obtain ⟨y1, y2⟩ := one _ _ hv.2 hw.2
  have h := HypotOk.near _ _ x2 y2
  have t := norm_rel uR_pos.le x1 y1
  have g0 : 0 ≤ gap (toReal v) (toReal w) := Real.sqrt_nonneg _
  have e : gap (toReal v) (toReal w) = √((v.x.real - w.x.real) * (v.x.real - w.x.real) + (v.y.real - w.y.real) * (v.y.real - w.y.real)) := rfl
  have ed : v.distanceTo w = PyMath.hypot (v.x - w.x) (v.y - w.y) := rfl
  rw [← e] at t
  rw [ed]
  have e1 : 1 / (2 : ℝ) ^ 1073 = 2 * (1 / 2 ^ 1074) := by
    have key : ∀ n : ℕ, 1 / (2 : ℝ) ^ n = 2 * (1 / 2 ^ (n + 1)) := by intro n; rw [inv_pow_split]; ring
    exact key 1073
  have e2 : 1 / (2 : ℝ) ^ 52 = 2 * uR := by norm_num [uR]
  rw [e1, u51]
  rw [e2] at h
  have z0 : (0 : ℝ) ≤ 1 / 2 ^ 1074 := by positivity
  clear e e1 e2 ed x1 x2 y1 y2 hv hw one
  generalize (v.x - w.x).real = a at *
  generalize (v.y - w.y).real = b at *
  generalize gap (toReal v) (toReal w) = g at *
  generalize (PyMath.hypot (v.x - w.x) (v.y - w.y) : Double).real = d at *
  generalize 1 / (2 : ℝ) ^ 1074 = z at *
  generalize √(a * a + b * b) = s at *
  have hu := uR_pos
  have hu' := uR_small
  have ug := mul_nonneg hu.le g0
  have ug' := mul_le_mul_of_nonneg_right hu' g0
  have t2 := abs_sub_le d s g
  have s1 := (abs_le.mp t).2
  have us : uR * s ≤ uR * (1001 / 1000 * g) := mul_le_mul_of_nonneg_left (by linarith only [s1, ug']) hu.le
  linarith only [t2, h, t, us, ug, z0]

variable [SqrtOk]

/-- **C80** `length` (and `abs`) up to a relative `2 ^ -51` and an absolute error that counts for tiny vectors only. -/
theorem C80_length (v : Vec2 Double) (hv : Within (2 ^ 500) v) :
    |v.length.real - vlen (toReal v)| ≤ 1 / 2 ^ 51 * vlen (toReal v) + 1 / 2 ^ 499 ∧ v.abs = v.length := by
  refine ⟨?_, rfl⟩
  have h := length_double v (within_510 hv).1 (within_510 hv).2
  rw [vlen_def, u51]
  have e : 1 / (2 : ℝ) ^ 499 = 2 * θR := by
    unfold θR
    have key : ∀ n : ℕ, 1 / (2 : ℝ) ^ n = 2 * (1 / 2 ^ (n + 1)) := by intro n; rw [inv_pow_split]; ring
    exact key 499
  rw [e]
  have := mul_nonneg uR_pos.le (Real.sqrt_nonneg (v.x.real * v.x.real + v.y.real * v.y.real))
  linarith

/-- **C80** `scaled_to` never raises. It returns the null vector or the vector along `v` of the length asked for, up to
rounding: the null vector for what is shorter than EPSILON by a relative `2 ^ -50`, the other one for what is longer by that
much. -/
theorem C80_scaled_to (eps : Double) (he : 1 / 2 ^ 500 ≤ eps.real) (v : Vec2 Double) (hv : Within (2 ^ 500) v)
    (L : Double) (hL : |L.real| ≤ 2 ^ 500) :
    ∃ n, v.scaledTo eps L = .ok n ∧
      (n = Vec2.null ∨ CloseVec (1 / 2 ^ 50) n (along (toReal v) L.real) ∧
        |vlen (toReal n) - abs L.real| ≤ 1 / 2 ^ 49 * abs L.real + 1 / 2 ^ 569) ∧
      (vlen (toReal v) ≤ eps.real * (1 - 1 / 2 ^ 50) → n = Vec2.null) ∧
      (eps.real * (1 + 1 / 2 ^ 50) ≤ vlen (toReal v) → CloseVec (1 / 2 ^ 50) n (along (toReal v) L.real) ∧
        |vlen (toReal n) - abs L.real| ≤ 1 / 2 ^ 49 * abs L.real + 1 / 2 ^ 569) := by
  have ep := (eps_small he).1
  rcases scaledTo_cases eps v L he hv hL with ⟨h1, h2⟩ | ⟨h1, h2, h3, n, hn, hx, hy⟩
  · refine ⟨_, h1, .inl rfl, fun _ => rfl, fun h => ?_⟩
    have hm : vlen (toReal v) ≤ 2 ^ 510 := by
      have := norm_within hv.1 hv.2
      rw [vlen_def]
      refine this.trans ?_
      calc 3 / 2 * (2 : ℝ) ^ 500 ≤ 2 ^ 1 * 2 ^ 500 := mul_le_mul_of_nonneg_right (by norm_num) (by positivity)
        _ = 2 ^ 501 := by rw [← pow_add]
        _ ≤ _ := pow_le_real (by norm_num)
    exact absurd (long_computed he h hm).1 (not_lt.mpr h2)
  · have comp : ∀ (x w : ℝ) (m : Double), |x| ≤ 2 ^ 500 → |m.real - w| ≤ 61 / 10 * uR * |w| + 11 / 10 * (|x| * ηR) + ηR →
        |m.real - w| ≤ 1 / 2 ^ 50 * |w| + 1 / 2 ^ 570 := by
      intro x w m hx5 h
      have k := inv_570 hx5
      have := mul_nonneg uR_pos.le (abs_nonneg w)
      rw [u50]
      generalize 1 / (2 : ℝ) ^ 570 = z at *
      linarith
    have c : CloseVec (1 / 2 ^ 50) n (along (toReal v) L.real) := ⟨comp _ _ _ hv.1 hx, comp _ _ _ hv.2 hy⟩
    have lenx : |vlen (toReal n) - abs L.real| ≤ 1 / 2 ^ 49 * abs L.real + 1 / 2 ^ 569 := by
      have hl := vlen_along h2 L.real
      have k := vlen_close (p := toReal n) (q := along (toReal v) L.real) c.1 c.2
      rw [hl] at k
      have hxl : |(along (toReal v) L.real).x| ≤ |L.real| := by
        rw [← hl]; exact abs_le_norm _ _
      have hyl : |(along (toReal v) L.real).y| ≤ |L.real| := by
        rw [← hl, vlen, add_comm]; exact abs_le_norm _ _
      have e1 : 1 / (2 : ℝ) ^ 569 = 2 * (1 / 2 ^ 570) := by
        have key : ∀ n : ℕ, 1 / (2 : ℝ) ^ n = 2 * (1 / 2 ^ (n + 1)) := by intro n; rw [inv_pow_split]; ring
        exact key 569
      rw [e1]
      have a1 := mul_le_mul_of_nonneg_left hxl (show (0 : ℝ) ≤ 1 / 2 ^ 50 by norm_num)
      have a2 := mul_le_mul_of_nonneg_left hyl (show (0 : ℝ) ≤ 1 / 2 ^ 50 by norm_num)
      have e2 : 1 / (2 : ℝ) ^ 49 = 2 * (1 / 2 ^ 50) := by norm_num
      rw [e2]
      generalize 1 / (2 : ℝ) ^ 570 = z at *
      generalize 1 / (2 : ℝ) ^ 50 = y at *
      linarith
    refine ⟨n, hn, .inr ⟨c, lenx⟩, fun h => ?_, fun _ => ⟨c, lenx⟩⟩
    have := long_of h1 h3 ep
    linarith

theorem clamped_branches (eps : Double) (v : Vec2 Double) (lo hi : Option Double) (Q : Double → Double)
    (hl : ∀ l, lo = some l → PyMath.sq l = some (Q l)) (hh : ∀ h, hi = some h → PyMath.sq h = some (Q h))
    (ho : ∀ l h, lo = some l → hi = some h → ¬ h < l) :
    ((∀ l, lo = some l → ¬ v.length2 < Q l) → (∀ h, hi = some h → ¬ Q h < v.length2) → v.clamped eps lo hi = .ok v) ∧
    (∀ l, lo = some l → v.length2 < Q l → v.clamped eps lo hi = v.scaledTo eps l) ∧
    (∀ h, hi = some h → (∀ l, lo = some l → ¬ v.length2 < Q l) → Q h < v.length2 →
      v.clamped eps lo hi = v.scaledTo eps h) := by
  unfold Vec2.clamped
  cases lo with
  | none =>
    cases hi with
    | none => simp [bind, Except.bind]
    | some h =>
      have e := hh h rfl
      refine ⟨fun _ b => ?_, fun l hl => (by cases hl), fun h' hh _ c => ?_⟩
      · simp only [pysq, e, Except.map, bind, Except.bind, Bool.false_eq_true, if_false, gt_iff_lt, b h rfl, decide_false]
      · cases hh
        simp only [pysq, e, Except.map, bind, Except.bind, Bool.false_eq_true, if_false, gt_iff_lt, c, decide_true, if_true, Option.getD_some]
  | some l =>
    have e' := hl l rfl
    cases hi with
    | none =>
      refine ⟨fun a _ => ?_, fun l' hl c => ?_, fun h hh => (by cases hh)⟩
      · simp only [pysq, e', Except.map, bind, Except.bind, Bool.false_eq_true, if_false, a l rfl, decide_false]
      · cases hl
        simp only [pysq, e', Except.map, bind, Except.bind, Bool.false_eq_true, if_false, c, decide_true, if_true, Option.getD_some]
    | some h =>
      have e := hh h rfl
      have n := ho l h rfl rfl
      refine ⟨fun a b => ?_, fun l' hl c => ?_, fun h' hh a c => ?_⟩
      · simp only [pysq, e, e', Except.map, bind, Except.bind, gt_iff_lt, n, Bool.false_eq_true, if_false, a l rfl, b h rfl, decide_false]
      · cases hl
        simp only [pysq, e', Except.map, bind, Except.bind, gt_iff_lt, n, Bool.false_eq_true, if_false, decide_false, c, decide_true, if_true,
          Option.getD_some]
      · cases hh
        simp only [pysq, e, e', Except.map, bind, Except.bind, gt_iff_lt, n, Bool.false_eq_true, if_false, decide_false, a l rfl, c, decide_true,
          if_true, Option.getD_some]

/-- **C80** `clamped`: the vector itself when its length is clearly (by a relative `2 ^ -50`) within the bounds, `scaled_to` the
bound that is clearly violated, ValueError exactly if the bounds are in the wrong order. -/
theorem C80_clamped [SqOk] (eps : Double) (v : Vec2 Double) (hv : Within (2 ^ 500) v) (lo hi : Option Double)
    (hlo : ∀ l, lo = some l → 0 ≤ l.real ∧ l.real ≤ 2 ^ 500) (hhi : ∀ h, hi = some h → 0 ≤ h.real ∧ h.real ≤ 2 ^ 500) :
    ((∃ l h, lo = some l ∧ hi = some h ∧ h < l) → v.clamped eps lo hi = .error .valueError) ∧
    ((∀ l h, lo = some l → hi = some h → l ≤ h) →
      (1 / 2 ^ 500 ≤ vlen (toReal v) → (∀ l, lo = some l → l.real * (1 + 1 / 2 ^ 50) ≤ vlen (toReal v)) →
        (∀ h, hi = some h → vlen (toReal v) ≤ h.real * (1 - 1 / 2 ^ 50)) → v.clamped eps lo hi = .ok v) ∧
      (∀ l, lo = some l → 1 / 2 ^ 500 ≤ l.real → vlen (toReal v) ≤ l.real * (1 - 1 / 2 ^ 50) →
        v.clamped eps lo hi = v.scaledTo eps l) ∧
      (∀ h, hi = some h → 1 / 2 ^ 500 ≤ vlen (toReal v) → h.real * (1 + 1 / 2 ^ 50) ≤ vlen (toReal v) →
        v.clamped eps lo hi = v.scaledTo eps h)) := by
  have hu := uR_pos
  have hu' := uR_small
  have hv2 := length2_near (within_510 hv).1 (within_510 hv).2
  have v0 : 0 ≤ vlen (toReal v) := Real.sqrt_nonneg _
  let Q : Double → Double := fun b => (PyMath.sq b).getD 0
  have sq' : ∀ b : Double, 0 ≤ b.real → b.real ≤ 2 ^ 500 → PyMath.sq b = some (Q b) ∧
      |(Q b).real - b.real * b.real| ≤ 5 * uR * (b.real * b.real) + 4 * ηR := by
    intro b h0 h
    obtain ⟨q, hq, hn⟩ := SqOk.near b (by rw [abs_of_nonneg h0]; exact h.trans (pow_le_real (by norm_num)))
    have hQ : Q b = q := by simp only [Q, hq, Option.getD_some]
    rw [hQ]
    refine ⟨hq, hn.trans ?_⟩
    have e1 : 1 / (2 : ℝ) ^ 1074 = 2 * ηR := by
      unfold ηR
      have key : ∀ n : ℕ, 1 / (2 : ℝ) ^ n = 2 * (1 / 2 ^ (n + 1)) := by intro n; rw [inv_pow_split]; ring
      exact key 1074
    have e2 : 1 / (2 : ℝ) ^ 52 = 2 * uR := by norm_num [uR]
    rw [e1, e2]
    have h1 := mul_nonneg hu.le (mul_self_nonneg b.real)
    have h2 := ηR_pos
    clear e1 e2 h hn hv2 hv hlo hhi
    linarith
  have sq : ∀ b : Double, 0 ≤ b.real → b.real ≤ 2 ^ 500 → |(Q b).real - b.real * b.real| ≤ 5 * uR * (b.real * b.real) + 4 * ηR :=
    fun b h0 h => (sq' b h0 h).2
  have below : ∀ b : Double, 0 ≤ b.real → b.real ≤ 2 ^ 500 → 1 / 2 ^ 500 ≤ b.real →
      vlen (toReal v) ≤ b.real * (1 - 1 / 2 ^ 50) → v.length2 < Q b := by
    intro b h0 h1 h2 h
    obtain ⟨b0, hη⟩ := eps_small h2
    exact real_lt.mp (sq_lt hu hu' ηR_pos v0 hv2 (sq b h0 h1) b0 hη (margin_low b0.le h))
  have above : ∀ b : Double, 0 ≤ b.real → b.real ≤ 2 ^ 500 → 1 / 2 ^ 500 ≤ vlen (toReal v) →
      b.real * (1 + 1 / 2 ^ 50) ≤ vlen (toReal v) → Q b < v.length2 := by
    intro b h0 h1 h2 h
    obtain ⟨b0, hη⟩ := eps_small h2
    exact real_lt.mp (sq_lt hu hu' ηR_pos h0 (sq b h0 h1) hv2 b0 hη (margin_high h0 h))
  constructor
  · rintro ⟨l, h, rfl, rfl, hlt⟩
    simp only [Vec2.clamped, gt_iff_lt, hlt, decide_true, if_true]
  · intro hord
    have key := clamped_branches eps v lo hi Q (fun l a => (sq' l (hlo l a).1 (hlo l a).2).1)
      (fun h a => (sq' h (hhi h a).1 (hhi h a).2).1) (fun l h a b => not_lt.mpr (hord l h a b))
    refine ⟨fun h0 h1 h2 => key.1 (fun l hl => ?_) (fun h hh => ?_), fun l hl h0 h1 => ?_, fun h hh h0 h1 => ?_⟩
    · exact not_lt.mpr (above l (hlo l hl).1 (hlo l hl).2 h0 (h1 l hl)).le
    · have hb := h2 h hh
      refine not_lt.mpr (below h (hhi h hh).1 (hhi h hh).2 (h0.trans (hb.trans ?_)) hb).le
      exact mul_le_of_le_one_right (hhi h hh).1 (by norm_num)
    · exact key.2.1 l hl (below l (hlo l hl).1 (hlo l hl).2 h0 h1)
    · refine key.2.2 h hh (fun l hl => ?_) (above h (hhi h hh).1 (hhi h hh).2 h0 h1)
      refine not_lt.mpr (above l (hlo l hl).1 (hlo l hl).2 h0 (le_trans ?_ h1)).le
      exact mul_le_mul_of_nonneg_right (real_le.mpr (hord l h hl hh)) (by norm_num)

/-- **C80** `clamped` with a bound of `2 ^ 512` (about `1.3e154`) or more raises OverflowError: any bound the code gets to square,
which is the lower one if given, and otherwise the upper one. -/
theorem C80_clamped_overflow [SqOk] (eps : Double) (v : Vec2 Double) (b : Double) (hb : b.Finite) (h : 2 ^ 512 ≤ b.real) :
    v.clamped eps (some b) none = .error .overflowError ∧ v.clamped eps none (some b) = .error .overflowError := by
  have e := SqOk.overflow b hb (h.trans (le_abs_self _))
  constructor <;> simp only [Vec2.clamped, pysq, e, Except.map, bind, Except.bind, Bool.false_eq_true, if_false]

omit [PyMath Double] [SqrtOk] in
theorem dbl_600 : (dbl (2 ^ 600)).Finite ∧ 2 ^ 512 ≤ (dbl (2 ^ 600)).real := by
  have h := double_float 1 600 (by norm_num) (by norm_num) (by norm_num)
  rw [Int.cast_one, one_mul] at h
  have hv : (dbl (2 ^ 600)).val = 2 ^ 600 := by
    have gen : ∀ n : ℕ, double.rnd ((2 : ℚ) ^ (n : ℤ)) = 2 ^ (n : ℤ) → (dbl (2 ^ n)).val = 2 ^ n := by
      intro n hn
      rw [zpow_natCast] at hn
      exact hn
    exact gen 600 h
  refine ⟨?_, ?_⟩
  · rw [Fl.Finite, hv, abs_of_pos (by positivity)]
    exact pow_lt_pow_right₀ (by norm_num) (by norm_num)
  · have key : ∀ (m n : ℕ) (d : Double), m ≤ n → d.val = 2 ^ n → 2 ^ m ≤ d.real := by
      intro m n d hmn hd
      unfold Fl.real
      rw [hd]; push_cast
      exact pow_le_pow_right₀ (by norm_num) hmn
    exact key _ _ _ (by norm_num) hv

/-- The hypotheses of C80 are met, for example, by the vectors (3, 4) and (1, 2), the default EPSILON, the length ten and the
bounds one and twenty. -/
example : Within (2 ^ 200) (dvec 3 4) ∧ Within (2 ^ 500) (dvec 3 4) ∧ Within (2 ^ 200) (dvec 1 2) ∧ Within (2 ^ 500) (dvec 1 2) ∧
    (1 / 2 ^ 200 : ℝ) ≤ (dbl (1 / 100000)).real ∧ (dbl (1 / 100000)).real ≤ (2 : ℝ) ^ 500 ∧
    (dbl (1 / 100000)).real * (1 + 1 / 2 ^ 50) ≤ vlen (toReal (dvec 3 4)) ∧ vlen (toReal (dvec 3 4)) = 5 ∧
    vlen (toReal (dvec 1 2)) ≤ vlen (toReal (dvec 3 4)) * (1 - 1 / 2 ^ 50) ∧
    (1 : ℝ) * (1 + 1 / 2 ^ 50) ≤ vlen (toReal (dvec 3 4)) ∧ vlen (toReal (dvec 3 4)) ≤ (20 : ℝ) * (1 - 1 / 2 ^ 50) ∧
    shadow (toReal (dvec 3 4)) (toReal (dvec 1 2)) = ⟨33 / 25, 44 / 25⟩ ∧
    mirror (toReal (dvec 1 2)) (toReal (dvec 3 4)) = ⟨41 / 25, 38 / 25⟩ ∧ along (toReal (dvec 3 4)) 10 = ⟨6, 8⟩ := by
  have n1 : (dbl 1).real = 1 := by simpa using dbl_int 1 (by norm_num)
  have n2 : (dbl 2).real = 2 := by simpa using dbl_int 2 (by norm_num)
  have n3 : (dbl 3).real = 3 := by simpa using dbl_int 3 (by norm_num)
  have n4 : (dbl 4).real = 4 := by simpa using dbl_int 4 (by norm_num)
  obtain ⟨h1, h2⟩ := dbl_eps
  have l5 : vlen (toReal (dvec 3 4)) = 5 := by
    rw [vlen_def]; simp only [dvec, n3, n4]
    rw [show (3 : ℝ) * 3 + 4 * 4 = 5 * 5 by norm_num, Real.sqrt_mul_self (by norm_num)]
  have l3 : vlen (toReal (dvec 1 2)) ≤ 3 := by
    rw [vlen_def]; simp only [dvec, n1, n2]
    rw [Real.sqrt_le_left (by norm_num)]; norm_num
  have p : ∀ n : ℕ, 3 ≤ n → (8 : ℝ) ≤ 2 ^ n := fun n hn => le_trans (by norm_num) (pow_le_real hn)
  have w1 : ∀ n : ℕ, 3 ≤ n → Within (2 ^ n) (dvec 3 4) := by
    intro n hn
    constructor <;> simp only [dvec, n3, n4] <;> refine le_trans ?_ (p n hn) <;> norm_num
  have w2 : ∀ n : ℕ, 3 ≤ n → Within (2 ^ n) (dvec 1 2) := by
    intro n hn
    constructor <;> simp only [dvec, n1, n2] <;> refine le_trans ?_ (p n hn) <;> norm_num
  refine ⟨w1 _ (by norm_num), w1 _ (by norm_num), w2 _ (by norm_num), w2 _ (by norm_num),
    (inv_pow_le (by norm_num)).trans h1, h2.trans (le_trans (by norm_num) (p 500 (by norm_num))), ?_, l5, ?_, ?_, ?_, ?_, ?_, ?_⟩
  · rw [l5]; linarith
  · rw [l5]; linarith
  · rw [l5]; norm_num
  · rw [l5]; norm_num
  · simp only [shadow, toReal, dvec, n1, n2, n3, n4]; norm_num
  · simp only [mirror, shadow, toReal, dvec, n1, n2, n3, n4]; norm_num
  · simp only [along, l5]; simp only [toReal, dvec, n3, n4]; norm_num

end Planar
