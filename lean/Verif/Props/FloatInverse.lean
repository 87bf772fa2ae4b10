import Verif.Props.FloatAffine
import Verif.Spec.DoubleInverse
/- Property C79: a transform and its inverse in double precision. -/
set_option linter.unusedSectionVars false
namespace Planar
open Spec Polygon

/-- One product of the second transform: `x1` the rounded image, `R` the rounded entry of the inverse. -/
theorem back_term {u B η ζ τ κ X x1 x' R r : ℝ} (hu : 0 < u) (hu1 : u ≤ 1 / 100) (hη : 0 ≤ η) (hη1 : η ≤ 1) (hζ : 0 ≤ ζ) (hB1 : 1 ≤ B)
    (hBη : B * η ≤ τ) (hBζ : B * ζ ≤ τ) (hX : X ≤ B) (hr : |r| ≤ B) (hx1 : |x1 - x'| ≤ u * X + η) (hx' : |x'| ≤ X)
    (hR : |R - r| ≤ 2 * u * κ * |r| + ζ) (hκ : 1 ≤ κ) (hκ1 : 2 * u * κ ≤ 1 / 4) :
    |x1 * R - x' * r| + u * |x1 * R| ≤ 8 * u * κ * (|r| * X) + 8 * τ ∧ |x1 * R| ≤ 4 * B * B + 8 * τ := by
  have hX0 : 0 ≤ X := (abs_nonneg _).trans hx'
  have hr0 := abs_nonneg r
  have τ0 : 0 ≤ τ := (mul_nonneg (by linarith) hη).trans hBη
  have a1 : |x1| ≤ (1 + u) * X + η := by
    have : |x1| ≤ |x1 - x'| + |x'| := by simpa using abs_add_le (x1 - x') x'
    linarith
  have e1 : |x1 * R - x' * r| ≤ |x1| * |R - r| + |x1 - x'| * |r| := by
    have : x1 * R - x' * r = x1 * (R - r) + (x1 - x') * r := by ring
    rw [this]
    refine (abs_add_le _ _).trans ?_
    rw [abs_mul, abs_mul]
  have p0 : 0 ≤ |r| * X := mul_nonneg hr0 hX0
  have t1 : X * ζ ≤ τ := (mul_le_mul_of_nonneg_right hX hζ).trans hBζ
  have t2 : η * |r| ≤ τ := by
    refine le_trans ?_ hBη
    rw [mul_comm]
    exact mul_le_mul_of_nonneg_right hr hη
  have t3 : η * ζ ≤ τ := by
    have : η * ζ ≤ 1 * ζ := mul_le_mul_of_nonneg_right hη1 hζ
    have : 1 * ζ ≤ B * ζ := mul_le_mul_of_nonneg_right hB1 hζ
    linarith
  have k0 : 0 ≤ 2 * u * κ := by positivity
  have b1 : |x1| * |R - r| ≤ ((1 + u) * X + η) * (2 * u * κ * |r| + ζ) :=
    mul_le_mul a1 hR (abs_nonneg _) (by positivity)
  have b2 : |x1 - x'| * |r| ≤ (u * X + η) * |r| := mul_le_mul_of_nonneg_right hx1 hr0
  have c1 : (1 + u) * X * (2 * u * κ * |r|) ≤ (1 + 1 / 100) * (2 * (u * κ * (|r| * X))) := by
    have : 0 ≤ u * κ * (|r| * X) := by positivity
    have h := mul_le_mul_of_nonneg_right (show 1 + u ≤ 1 + 1 / 100 by linarith) (mul_nonneg (by norm_num : (0:ℝ) ≤ 2) this)
    linarith
  have c2 : (1 + u) * X * ζ ≤ 2 * τ := by
    have h := mul_le_mul_of_nonneg_right (show 1 + u ≤ 2 by linarith) (mul_nonneg hX0 hζ)
    linarith
  have c3 : η * (2 * u * κ * |r|) ≤ τ := by
    have h := mul_le_mul_of_nonneg_right hκ1 (mul_nonneg hη hr0)
    have h' := mul_nonneg hη hr0
    linarith
  have c4 : u * X * |r| ≤ u * κ * (|r| * X) := by
    have h := mul_le_mul_of_nonneg_right hκ (mul_nonneg hu.le p0)
    linarith
  have main : |x1 * R - x' * r| ≤ (302 / 100) * (u * κ * (|r| * X)) + 5 * τ := by
    have h1 : ((1 + u) * X + η) * (2 * u * κ * |r| + ζ) =
      (1 + u) * X * (2 * u * κ * |r|) + (1 + u) * X * ζ + η * (2 * u * κ * |r|) + η * ζ := by ring
    have h2 : (u * X + η) * |r| = u * X * |r| + η * |r| := by ring
    linarith
  have d1 : |R| ≤ 5 / 4 * |r| + ζ := by
    have : |R| ≤ |R - r| + |r| := by simpa using abs_add_le (R - r) r
    have h := mul_le_mul_of_nonneg_right hκ1 hr0
    linarith
  have d2 : |x1 * R| ≤ ((1 + u) * X + η) * (5 / 4 * |r| + ζ) := by
    rw [abs_mul]
    exact mul_le_mul a1 d1 (abs_nonneg _) (by positivity)
  have d3 : ((1 + u) * X + η) * (5 / 4 * |r| + ζ) ≤ 2 * (|r| * X) + 5 * τ := by
    have h1 : ((1 + u) * X + η) * (5 / 4 * |r| + ζ) =
      (1 + u) * (5 / 4 * (|r| * X)) + (1 + u) * X * ζ + 5 / 4 * (η * |r|) + η * ζ := by ring
    have h := mul_le_mul_of_nonneg_right (show 1 + u ≤ 101 / 100 by linarith) (mul_nonneg (by norm_num : (0:ℝ) ≤ 5 / 4) p0)
    linarith
  refine ⟨?_, ?_⟩
  · have f1 : u * |x1 * R| ≤ u * (2 * (|r| * X) + 5 * τ) := mul_le_mul_of_nonneg_left (d2.trans d3) hu.le
    have f2 : u * (2 * (|r| * X) + 5 * τ) ≤ 2 * (u * κ * (|r| * X)) + τ := by
      have h1 := mul_le_mul_of_nonneg_right hκ (mul_nonneg hu.le p0)
      have h2 := mul_le_mul_of_nonneg_right hu1 τ0
      have h3 : u * (2 * (|r| * X) + 5 * τ) = 2 * (u * (|r| * X)) + 5 * (u * τ) := by ring
      linarith
    have : 0 ≤ u * κ * (|r| * X) := by positivity
    have e : 8 * u * κ * (|r| * X) = 8 * (u * κ * (|r| * X)) := by ring
    linarith
  · have : |r| * X ≤ B * B := mul_le_mul hr hX hX0 (by linarith)
    have hBB : 0 ≤ B * B := by positivity
    linarith

/-- The term that translates back. -/
theorem back_shift {u ζ κ W R r : ℝ} (hu : 0 < u) (hu1 : u ≤ 1 / 100) (hζ : 0 ≤ ζ) (hr : |r| ≤ W)
    (hR : |R - r| ≤ 4 * u * κ * W + ζ) (hκ : 1 ≤ κ) (hκ1 : 2 * u * κ ≤ 1 / 4) :
    |R - r| + u * |R| ≤ 8 * u * κ * W + 2 * ζ ∧ |R| ≤ 2 * W + ζ := by
  have hW : 0 ≤ W := (abs_nonneg _).trans hr
  have d1 : |R| ≤ 3 / 2 * W + ζ := by
    have : |R| ≤ |R - r| + |r| := by simpa using abs_add_le (R - r) r
    have h := mul_le_mul_of_nonneg_right hκ1 hW
    linarith
  refine ⟨?_, by linarith⟩
  have f1 : u * |R| ≤ u * (3 / 2 * W + ζ) := mul_le_mul_of_nonneg_left d1 hu.le
  have f2 : u * (3 / 2 * W + ζ) ≤ 3 / 2 * (u * κ * W) + ζ := by
    have h1 := mul_le_mul_of_nonneg_right hκ (mul_nonneg hu.le hW)
    have h2 := mul_le_mul_of_nonneg_right hu1 hζ
    linarith
  have : 0 ≤ u * κ * W := by positivity
  linarith

/-- One coordinate of the round trip. -/
theorem back_coord {u B η ζ τ κ X Y W x1 y1 x' y' R1 R2 R3 r1 r2 r3 out x : ℝ} (hu : 0 < u) (hu1 : u ≤ 1 / 100) (hη : 0 ≤ η) (hη1 : η ≤ 1)
    (hζ : 0 ≤ ζ) (hB1 : 1 ≤ B) (hBη : B * η ≤ τ) (hBζ : B * ζ ≤ τ) (hX : X ≤ B) (hY : Y ≤ B) (hr1 : |r1| ≤ B) (hr2 : |r2| ≤ B)
    (hx1 : |x1 - x'| ≤ u * X + η) (hx' : |x'| ≤ X) (hy1 : |y1 - y'| ≤ u * Y + η) (hy' : |y'| ≤ Y)
    (h1 : |R1 - r1| ≤ 2 * u * κ * |r1| + ζ) (h2 : |R2 - r2| ≤ 2 * u * κ * |r2| + ζ) (hr3 : |r3| ≤ W) (h3 : |R3 - r3| ≤ 4 * u * κ * W + ζ)
    (hκ : 1 ≤ κ) (hκ1 : 2 * u * κ ≤ 1 / 4) (hx : x = x' * r1 + y' * r2 + r3) :
    |x1 * R1| + |y1 * R2| + |R3| ≤ 8 * B * B + 2 * W + 17 * τ ∧
    (|out - (x1 * R1 + y1 * R2 + R3)| ≤ u * (|x1 * R1| + |y1 * R2| + |R3|) + η →
      |out - x| ≤ 8 * u * κ * (|r1| * X + |r2| * Y + W) + 19 * τ) := by
  have a := back_term hu hu1 hη hη1 hζ hB1 hBη hBζ hX hr1 hx1 hx' h1 hκ hκ1
  have b := back_term hu hu1 hη hη1 hζ hB1 hBη hBζ hY hr2 hy1 hy' h2 hκ hκ1
  have c := back_shift hu hu1 hζ hr3 h3 hκ hκ1
  have z : ζ ≤ τ := by have := mul_le_mul_of_nonneg_right hB1 hζ; linarith
  have z' : η ≤ τ := by have := mul_le_mul_of_nonneg_right hB1 hη; linarith
  refine ⟨by linarith [a.2, b.2, c.2], fun ho => ?_⟩
  have e : out - x = (out - (x1 * R1 + y1 * R2 + R3)) + (x1 * R1 - x' * r1) + (y1 * R2 - y' * r2) + (R3 - r3) := by rw [hx]; ring
  have t : |out - x| ≤ |out - (x1 * R1 + y1 * R2 + R3)| + |x1 * R1 - x' * r1| + |y1 * R2 - y' * r2| + |R3 - r3| := by
    rw [e]
    exact (abs_add_le _ _).trans (add_le_add ((abs_add_le _ _).trans (add_le_add (abs_add_le _ _) le_rfl)) le_rfl)
  have s : 8 * u * κ * (|r1| * X + |r2| * Y + W) = 8 * u * κ * (|r1| * X) + 8 * u * κ * (|r2| * Y) + 8 * u * κ * W := by ring
  have a1 := a.1
  have b1 := b.1
  have c1 := c.1
  rw [s]
  linarith

theorem pow_le_of_le {m n : ℕ} (h : m ≤ n) : (2 : ℝ) ^ m ≤ 2 ^ n := pow_le_pow_right₀ (by norm_num) h

/-- What is not degenerate has a determinant well above zero. -/
theorem invert_det_big {eps : Double} (he : 1 / 2 ^ 200 ≤ eps.real) {T R : Affine Double} (hT : WithinT (2 ^ 200) T)
    (hK : detSize T ≤ 2 ^ 48 * |exactDet T|) (h : T.invert eps = .ok R) : 1 / 2 ^ 201 ≤ |exactDet T| := by
  have h0 : 0 < eps := by
    rw [← real_lt, real_zero]
    have := two_pow_pos 200
    have : (0 : ℝ) < 1 / 2 ^ 200 := by positivity
    exact this.trans_le he
  have up : (2 : ℝ) ^ 200 ≤ 2 ^ 500 := pow_le_of_le (by norm_num)
  have hT' : WithinT (2 ^ 500) T := ⟨hT.1.trans up, hT.2.1.trans up, hT.2.2.1.trans up, hT.2.2.2.1.trans up, hT.2.2.2.2.1.trans up, hT.2.2.2.2.2.trans up⟩
  have k := (C79_inverse_raises eps h0 T hT').2.1
  by_contra hc
  rw [not_le] at hc
  have : T.invert eps = .error .notInvertible := by
    apply k
    have e1 : (1 : ℝ) / 2 ^ 1072 ≤ 1 / 2 ^ 8 * (1 / 2 ^ 201) := by
      rw [inv_pow_split (m := 8) (n := 201) |>.symm]
      exact inv_pow_le (by norm_num)
    have e2 : (1 : ℝ) / 2 ^ 200 = 2 * (1 / 2 ^ 201) := by
      rw [show (201 : ℕ) = 200 + 1 from rfl, pow_succ]; ring
    have e3 : (1 : ℝ) / 2 ^ 51 * detSize T ≤ 1 / 2 ^ 3 * |exactDet T| := by
      have := mul_le_mul_of_nonneg_left hK (show (0 : ℝ) ≤ 1 / 2 ^ 51 by positivity)
      calc _ ≤ _ := this
        _ = 1 / 2 ^ 3 * |exactDet T| := by ring
    have p : (0 : ℝ) < 1 / 2 ^ 201 := by have := two_pow_pos 201; positivity
    rw [e2] at he
    clear k hT hT' up hK e2
    generalize (1 : ℝ) / 2 ^ 1072 = η at *
    generalize (1 : ℝ) / 2 ^ 201 = w at *
    generalize (1 : ℝ) / 2 ^ 51 * detSize T = q at *
    linarith
  rw [this] at h
  cases h

/-- **C79** `~T * (T * p)` is `p`, up to `2 ^ -48` of the sum of the absolute values of the terms times the amount of cancellation
in the determinant, for the transforms whose inverse undoes them in exact arithmetic (C15: no translation, or `b = d`). -/
theorem C79_round_trip (eps : Double) (he : 1 / 2 ^ 200 ≤ eps.real) (T R : Affine Double) (hT : WithinT (2 ^ 200) T)
    (hK : detSize T ≤ 2 ^ 48 * |exactDet T|) (h : T.invert eps = .ok R) (h15 : T.c.real = 0 ∧ T.f.real = 0 ∨ T.b.real = T.d.real)
    (p : Vec2 Double) (hx : |p.x.real| ≤ 2 ^ 200) (hy : |p.y.real| ≤ 2 ^ 200) :
    |(R.apply (T.apply p)).x.real - p.x.real| ≤ 1 / 2 ^ 48 * spread T * (backSize T p).x + 1 / 2 ^ 390 ∧
    |(R.apply (T.apply p)).y.real - p.y.real| ≤ 1 / 2 ^ 48 * spread T * (backSize T p).y + 1 / 2 ^ 390 := by
  have hD := invert_det_big he hT hK h
  obtain ⟨hne, ra, rb, rd, re, rc, rf⟩ := C79_inverse eps he T R hT hK h
  have hDp : 0 < |exactDet T| := abs_pos.mpr hne
  have κ1 : 1 ≤ spread T := by
    unfold spread
    rw [le_div_iff₀ hDp, one_mul]
    unfold exactDet detSize
    exact abs_sub _ _
  have κ2 : 2 * (1 / 2 ^ 51) * spread T ≤ 1 / 4 := by
    have : spread T ≤ 2 ^ 48 := (div_le_iff₀ hDp).mpr hK
    calc 2 * (1 / 2 ^ 51) * spread T ≤ 2 * (1 / 2 ^ 51) * 2 ^ 48 := mul_le_mul_of_nonneg_left this (by norm_num)
      _ ≤ 1 / 4 := by norm_num
  -- sizes
  have hmul : ∀ {x y : ℝ}, |x| ≤ 2 ^ 200 → |y| ≤ 2 ^ 200 → |x * y| ≤ 2 ^ 400 := by
    intro x y h1 h2
    rw [abs_mul, show (2 : ℝ) ^ 400 = 2 ^ 200 * 2 ^ 200 from by rw [← pow_add]]
    exact mul_le_mul h1 h2 (abs_nonneg _) (two_pow_pos 200).le
  have h402 : (2 : ℝ) ^ 402 = 4 * 2 ^ 400 := by rw [show (402 : ℕ) = 2 + 400 from rfl, pow_add]; norm_num
  have h200 : (2 : ℝ) ^ 200 ≤ 2 ^ 400 := pow_le_of_le (by norm_num)
  obtain ⟨ta, tb, tc, td, te, tf⟩ := hT
  have hX : (imageSize T p).x ≤ 2 ^ 402 := by
    have h1 := hmul hx ta
    have h2 := hmul hy td
    unfold imageSize
    rw [h402]
    simp only
    generalize (2 : ℝ) ^ 400 = P at *
    generalize (2 : ℝ) ^ 200 = Q at *
    linarith only [h1, h2, tc, h200, (abs_nonneg _).trans h1]
  have hY : (imageSize T p).y ≤ 2 ^ 402 := by
    have h1 := hmul hx tb
    have h2 := hmul hy te
    unfold imageSize
    rw [h402]
    simp only
    generalize (2 : ℝ) ^ 400 = P at *
    generalize (2 : ℝ) ^ 200 = Q at *
    linarith only [h1, h2, tf, h200, (abs_nonneg _).trans h1]
  have h1000 : (2 : ℝ) ^ 402 ≤ 2 ^ 1000 := pow_le_of_le (by norm_num)
  have hdiv : ∀ x : ℝ, |x| ≤ 2 ^ 200 → |x / exactDet T| ≤ 2 ^ 402 := by
    intro x h1
    rw [abs_div, div_le_iff₀ hDp]
    have : (2 : ℝ) ^ 201 * (1 / 2 ^ 201) = 1 := by rw [mul_one_div, div_self (two_pow_pos 201).ne']
    have h2 := mul_le_mul_of_nonneg_left hD (two_pow_pos 201).le
    rw [this] at h2
    have h3 : (2 : ℝ) ^ 402 = 2 ^ 201 * 2 ^ 201 := by rw [← pow_add]
    have h4 : (2 : ℝ) ^ 200 ≤ 2 ^ 201 := pow_le_of_le (by norm_num)
    have h5 := mul_le_mul_of_nonneg_left h2 (two_pow_pos 201).le
    rw [h3, mul_assoc]
    generalize (2 : ℝ) ^ 201 * |exactDet T| = v at *
    generalize (2 : ℝ) ^ 201 = P at *
    generalize (2 : ℝ) ^ 200 = Q at *
    linarith only [h1, h4, h5]
  have ap := C79_apply T p (hX.trans h1000) (hY.trans h1000)
  have iX : |(image T p).x| ≤ (imageSize T p).x := by
    unfold image imageSize
    exact (abs_add_le _ _).trans (add_le_add (abs_add_le _ _) le_rfl)
  have iY : |(image T p).y| ≤ (imageSize T p).y := by
    unfold image imageSize
    exact (abs_add_le _ _).trans (add_le_add (abs_add_le _ _) le_rfl)
  have hτ : (2 : ℝ) ^ 402 * (1 / 2 ^ 800) ≤ 1 / 2 ^ 396 := by
    rw [mul_one_div, div_le_div_iff₀ (two_pow_pos 800) (two_pow_pos 396), ← pow_add, one_mul]
    exact pow_le_of_le (by norm_num)
  have hτ' : (2 : ℝ) ^ 402 * (1 / 2 ^ 1072) ≤ 1 / 2 ^ 396 := by
    rw [mul_one_div, div_le_div_iff₀ (two_pow_pos 1072) (two_pow_pos 396), ← pow_add, one_mul]
    exact pow_le_of_le (by norm_num)
  have h1 : (1 : ℝ) / 2 ^ 1072 ≤ 1 := by
    rw [div_le_one (two_pow_pos 1072)]
    exact one_le_pow₀ (by norm_num)
  have hB1 : (1 : ℝ) ≤ 2 ^ 402 := one_le_pow₀ (by norm_num)
  have big : ∀ A C : ℝ, |A| ≤ 2 ^ 400 → |C| ≤ 2 ^ 400 → 8 * (2 : ℝ) ^ 402 * 2 ^ 402 + 2 * ((|A| + |C|) / |exactDet T|) + 17 * (1 / 2 ^ 396) ≤ 2 ^ 1000 := by
    intro A C hA hC
    have b1 : 8 * (2 : ℝ) ^ 402 * 2 ^ 402 = 2 ^ 807 := by
      rw [show (8 : ℝ) = 2 ^ 3 by norm_num, ← pow_add, ← pow_add]
    have b2 : (|A| + |C|) / |exactDet T| ≤ 2 ^ 602 := by
      rw [div_le_iff₀ hDp]
      have e1 : (2 : ℝ) ^ 602 * (1 / 2 ^ 201) = 2 ^ 401 := by
        rw [mul_one_div, div_eq_iff (two_pow_pos 201).ne', ← pow_add]
      have e2 := mul_le_mul_of_nonneg_left hD (two_pow_pos 602).le
      rw [e1] at e2
      have e3 : (2 : ℝ) ^ 401 = 2 * 2 ^ 400 := by rw [show (401 : ℕ) = 1 + 400 from rfl, pow_add]; norm_num
      rw [e3] at e2
      generalize (2 : ℝ) ^ 602 * |exactDet T| = v at *
      generalize (2 : ℝ) ^ 400 = P at *
      linarith only [hA, hC, e2]
    have b3 : (1 : ℝ) / 2 ^ 396 ≤ 1 := by
      rw [div_le_one (two_pow_pos 396)]
      exact one_le_pow₀ (by norm_num)
    have c1 : (2 : ℝ) ^ 807 ≤ 2 ^ 900 := pow_le_of_le (by norm_num)
    have c2 : (2 : ℝ) ^ 602 ≤ 2 ^ 900 := pow_le_of_le (by norm_num)
    have c3 : (1 : ℝ) ≤ 2 ^ 900 := one_le_pow₀ (by norm_num)
    have c4 : (2 : ℝ) ^ 1000 = 2 ^ 100 * 2 ^ 900 := by rw [← pow_add]
    have c5 : 20 * (2 : ℝ) ^ 900 ≤ 2 ^ 100 * 2 ^ 900 := mul_le_mul_of_nonneg_right (by norm_num) (two_pow_pos 900).le
    rw [b1, c4]
    generalize (2 : ℝ) ^ 100 * 2 ^ 900 = v at *
    generalize (2 : ℝ) ^ 900 = P at *
    generalize (2 : ℝ) ^ 807 = P1 at *
    generalize (2 : ℝ) ^ 602 = P2 at *
    generalize (1 : ℝ) / 2 ^ 396 = P3 at *
    linarith only [b2, b3, c1, c2, c3, c5]
  have u50' : (1 : ℝ) / 2 ^ 50 = 2 * (1 / 2 ^ 51) := by norm_num
  have u49' : (1 : ℝ) / 2 ^ 49 = 4 * (1 / 2 ^ 51) := by norm_num
  have u48' : (1 : ℝ) / 2 ^ 48 = 8 * (1 / 2 ^ 51) := by norm_num
  have t19 : 19 * ((1 : ℝ) / 2 ^ 396) ≤ 1 / 2 ^ 390 := by
    rw [show (396 : ℕ) = 390 + 6 from rfl, pow_add]
    have := two_pow_pos 390
    generalize (2 : ℝ) ^ 390 = P at *
    rw [mul_one_div, div_le_div_iff₀ (by positivity) this]
    linarith
  unfold Near at ra rb rd re rc rf
  rw [u50'] at ra rb rd re
  rw [u49'] at rc rf
  have n0 : (0 : ℝ) ≤ 1 / 2 ^ 1072 := by have := two_pow_pos 1072; positivity
  have n1 : (0 : ℝ) ≤ 1 / 2 ^ 800 := by have := two_pow_pos 800; positivity
  have n2 : (0 : ℝ) < 1 / 2 ^ 51 := by norm_num
  have n3 : (1 : ℝ) / 2 ^ 51 ≤ 1 / 100 := by norm_num
  have cx := back_coord (out := (R.apply (T.apply p)).x.real) (x := p.x.real) (r1 := T.e.real / exactDet T) (r2 := -(T.d.real / exactDet T)) (r3 := (T.f.real * T.b.real - T.c.real * T.e.real) / exactDet T)
    (W := (|T.c.real * T.e.real| + |T.f.real * T.b.real|) / |exactDet T|) n2 n3 n0 h1 n1 hB1 hτ' hτ hX hY (hdiv _ te) (by rw [abs_neg]; exact hdiv _ td) ap.1 iX ap.2 iY ra
    (by rw [abs_neg]; exact rd) (by
      rw [abs_div]
      refine div_le_div_of_nonneg_right ?_ hDp.le
      rw [add_comm]
      exact abs_sub _ _) rc κ1 κ2 (by
      unfold image
      simp only
      field_simp
      unfold exactDet
      rcases h15 with ⟨h1, h2⟩ | h1
      · rw [h1, h2]; ring
      · rw [h1]; ring)
  have cy := back_coord (out := (R.apply (T.apply p)).y.real) (x := p.y.real) (r1 := -(T.b.real / exactDet T)) (r2 := T.a.real / exactDet T) (r3 := (T.c.real * T.d.real - T.f.real * T.a.real) / exactDet T)
    (W := (|T.c.real * T.d.real| + |T.f.real * T.a.real|) / |exactDet T|) n2 n3 n0 h1 n1 hB1 hτ' hτ hX hY (by rw [abs_neg]; exact hdiv _ tb) (hdiv _ ta) ap.1 iX ap.2 iY
    (by rw [abs_neg]; exact rb) re (by
      rw [abs_div]
      exact div_le_div_of_nonneg_right (abs_sub _ _) hDp.le) rf κ1 κ2 (by
      unfold image
      simp only
      field_simp
      unfold exactDet
      rcases h15 with ⟨h1, h2⟩ | h1
      · rw [h1, h2]; ring
      · rw [h1]; ring)
  have ap2 := C79_apply R (T.apply p) (cx.1.trans (big _ _ (hmul tc te) (hmul tf tb))) (cy.1.trans (big _ _ (hmul tc td) (hmul tf ta)))
  have fx := cx.2 ap2.1
  have fy := cy.2 ap2.2
  have sx : (backSize T p).x = |T.e.real / exactDet T| * (imageSize T p).x + |-(T.d.real / exactDet T)| * (imageSize T p).y +
      (|T.c.real * T.e.real| + |T.f.real * T.b.real|) / |exactDet T| := by
    unfold backSize
    simp only [abs_neg, abs_div]
    ring
  have sy : (backSize T p).y = |-(T.b.real / exactDet T)| * (imageSize T p).x + |T.a.real / exactDet T| * (imageSize T p).y +
      (|T.c.real * T.d.real| + |T.f.real * T.a.real|) / |exactDet T| := by
    unfold backSize
    simp only [abs_neg, abs_div]
    ring
  rw [u48', sx, sy]
  exact ⟨fx.trans (add_le_add le_rfl t19), fy.trans (add_le_add le_rfl t19)⟩

/-- **C79** `polygon *= T` and then `polygon *= ~T`, after any history: every vertex comes back to where it was up to that error. -/
theorem C79_round_trip_vertices (eps : Double) (he : 1 / 2 ^ 200 ≤ eps.real) (T R : Affine Double) (hT : WithinT (2 ^ 200) T)
    (hK : detSize T ≤ 2 ^ 48 * |exactDet T|) (h : T.invert eps = .ok R) (h15 : T.c.real = 0 ∧ T.f.real = 0 ∨ T.b.real = T.d.real)
    (vs : List (Vec2 Double)) (ops : List (PolyOp Double)) :
    let s := (Polygon.fromPoints vs).after eps ops
    let t := (Polygon.fromPoints vs).after eps (ops ++ [.imul T, .imul R])
    (∀ v ∈ s.verts, |v.x.real| ≤ 2 ^ 200 ∧ |v.y.real| ≤ 2 ^ 200) → t.verts.length = s.verts.length ∧
      ∀ (i : Nat) (v w : Vec2 Double), s.verts[i]? = some v → t.verts[i]? = some w →
        |w.x.real - v.x.real| ≤ 1 / 2 ^ 48 * spread T * (backSize T v).x + 1 / 2 ^ 390 ∧
        |w.y.real - v.y.real| ≤ 1 / 2 ^ 48 * spread T * (backSize T v).y + 1 / 2 ^ 390 := by
  intro s t hv
  have e1 : (s.imul T).verts = s.verts.map T.apply := (C19_polygon eps vs ops T).2
  have e2 : t = ((Polygon.fromPoints vs).after eps (ops ++ [.imul T])).imul R := by
    simp only [t, Polygon.after, List.foldl_append]
    rfl
  have e3 : (Polygon.fromPoints vs).after eps (ops ++ [.imul T]) = s.imul T := by
    simp only [s, Polygon.after, List.foldl_append]
    rfl
  have e4 : t.verts = (s.verts.map T.apply).map R.apply := by
    have e5 : (((Polygon.fromPoints vs).after eps (ops ++ [.imul T])).imul R).verts =
        ((Polygon.fromPoints vs).after eps (ops ++ [.imul T])).verts.map R.apply := (C19_polygon eps vs (ops ++ [PolyOp.imul T]) R).2
    rw [e2, e5, e3, e1]
  refine ⟨by rw [e4, List.length_map, List.length_map], fun i v w hi hw => ?_⟩
  rw [e4, List.getElem?_map, List.getElem?_map, hi] at hw
  cases hw
  obtain ⟨a, b⟩ := hv v (List.mem_of_getElem? hi)
  exact C79_round_trip eps he T R hT hK h h15 v a b

/-- The transform `[3 4 0 / -4 3 0]`, which turns and stretches, meets the hypotheses; for the point (1, 2) the sums of the
terms are 73/25 and 74/25. -/
def exT0 : Affine Double := ⟨dbl 3, dbl 4, dbl 0, dbl (-4), dbl 3, dbl 0⟩

example : WithinT (2 ^ 200) exT0 ∧ detSize exT0 ≤ 2 ^ 48 * |exactDet exT0| ∧ spread exT0 = 1 ∧ (exT0.c.real = 0 ∧ exT0.f.real = 0) ∧
    backSize exT0 (dvec 1 2) = ⟨73 / 25, 74 / 25⟩ ∧ ∃ R, exT0.invert (dbl (1 / 100000)) = .ok R := by
  have n0 : (dbl 0).real = 0 := by simpa using dbl_int 0 (by norm_num)
  have n1 : (dbl 1).real = 1 := by simpa using dbl_int 1 (by norm_num)
  have n2 : (dbl 2).real = 2 := by simpa using dbl_int 2 (by norm_num)
  have n3 : (dbl 3).real = 3 := by simpa using dbl_int 3 (by norm_num)
  have n4 : (dbl 4).real = 4 := by simpa using dbl_int 4 (by norm_num)
  have m4 : (dbl (-4)).real = -4 := by simpa using dbl_int (-4) (by norm_num)
  obtain ⟨h1, h2⟩ := dbl_eps
  have hw : ∀ n : ℕ, 5 ≤ n → WithinT (2 ^ n) exT0 := by
    intro n hn
    have h32 : (32 : ℝ) ≤ 2 ^ n := le_trans (by norm_num) (pow_le_real hn)
    refine ⟨?_, ?_, ?_, ?_, ?_, ?_⟩ <;> simp only [exT0, n3, n4, m4, n0] <;> refine le_trans ?_ h32 <;> norm_num
  have hd : exactDet exT0 = 25 := by simp only [exactDet, exT0, n3, n4, m4]; norm_num
  have hs : detSize exT0 = 25 := by simp only [detSize, exT0, n3, n4, m4]; norm_num
  have e0 : (0 : Double) < dbl (1 / 100000) := by
    rw [← real_lt, real_zero]; exact lt_of_lt_of_le (by norm_num) h1
  refine ⟨hw _ (by norm_num), ?_, ?_, ⟨n0, n0⟩, ?_, ?_⟩
  · rw [hs, hd]; norm_num
  · rw [spread, hs, hd]; norm_num
  · rw [backSize, hd]
    simp only [imageSize, exT0, dvec, n0, n1, n2, n3, n4, m4]; norm_num
  · refine (C79_inverse_raises _ e0 exT0 (hw _ (by norm_num))).2.2 ?_
    rw [hs, hd]
    have : (1 : ℝ) / 2 ^ 1072 ≤ 1 / 2 ^ 1 := inv_pow_le (by norm_num)
    generalize (1 : ℝ) / 2 ^ 1072 = g at *
    norm_num at *
    linarith

end Planar
