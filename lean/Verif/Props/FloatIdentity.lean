import Verif.Props.FloatInverse
/- Property C79: the product of a transform and its inverse in double precision. -/
set_option linter.unusedSectionVars false
namespace Planar
open Spec

/-- One product of an exact entry and a rounded one. -/
theorem id_term {u ζ κ W R r x : ℝ} (hu : 0 < u) (hu1 : u ≤ 1 / 100) (hζ : 0 ≤ ζ) (hr : |r| ≤ W)
    (hR : |R - r| ≤ 4 * u * κ * W + ζ) (hκ : 1 ≤ κ) (hκ1 : 2 * u * κ ≤ 1 / 4) :
    |x * R - x * r| + u * |x * R| ≤ 8 * u * κ * (|x| * W) + 2 * (|x| * ζ) ∧ |x * R| ≤ 2 * (|x| * W) + |x| * ζ := by
  have c := back_shift hu hu1 hζ hr hR hκ hκ1
  have h1 := mul_le_mul_of_nonneg_left c.1 (abs_nonneg x)
  have h2 := mul_le_mul_of_nonneg_left c.2 (abs_nonneg x)
  rw [← mul_sub, abs_mul, abs_mul]
  constructor <;> linarith

/-- One entry of the product. -/
theorem id_coord {u η ζ κ W1 W2 W3 x y R1 R2 R3 r1 r2 r3 out v : ℝ} (hu : 0 < u) (hu1 : u ≤ 1 / 100) (hζ : 0 ≤ ζ)
    (hr1 : |r1| ≤ W1) (h1 : |R1 - r1| ≤ 4 * u * κ * W1 + ζ) (hr2 : |r2| ≤ W2) (h2 : |R2 - r2| ≤ 4 * u * κ * W2 + ζ)
    (hr3 : |r3| ≤ W3) (h3 : |R3 - r3| ≤ 4 * u * κ * W3 + ζ) (hκ : 1 ≤ κ) (hκ1 : 2 * u * κ ≤ 1 / 4)
    (ho : |out - (x * R1 + y * R2 + R3)| ≤ u * (|x * R1| + |y * R2| + |R3|) + η) (hv : x * r1 + y * r2 + r3 = v) :
    |out - v| ≤ 8 * u * κ * (|x| * W1 + |y| * W2 + W3) + (2 * (|x| * ζ) + 2 * (|y| * ζ) + 2 * ζ + η) := by
  have a := (id_term (x := x) hu hu1 hζ hr1 h1 hκ hκ1).1
  have b := (id_term (x := y) hu hu1 hζ hr2 h2 hκ hκ1).1
  have c := (back_shift hu hu1 hζ hr3 h3 hκ hκ1).1
  have e : out - v = (out - (x * R1 + y * R2 + R3)) + (x * R1 - x * r1) + (y * R2 - y * r2) + (R3 - r3) := by rw [← hv]; ring
  have t : |out - v| ≤ |out - (x * R1 + y * R2 + R3)| + |x * R1 - x * r1| + |y * R2 - y * r2| + |R3 - r3| := by
    rw [e]
    exact (abs_add_le _ _).trans (add_le_add ((abs_add_le _ _).trans (add_le_add (abs_add_le _ _) le_rfl)) le_rfl)
  linarith

/-- **C79** `~T * T` and `T * ~T` are the identity up to `2 ^ -48` of the sums of the absolute values of the terms of each entry
times the amount of cancellation in the determinant. (In exact arithmetic both are the identity, although `~T` need not bring
points back: C15.) -/
theorem C79_inverse_product (eps : Double) (he : 1 / 2 ^ 200 ≤ eps.real) (T R : Affine Double) (hT : WithinT (2 ^ 200) T)
    (hK : detSize T ≤ 2 ^ 48 * |exactDet T|) (h : T.invert eps = .ok R) :
    let a := |T.a.real|; let b := |T.b.real|; let c := |T.c.real|; let d := |T.d.real|; let e := |T.e.real|; let f := |T.f.real|
    let D := |exactDet T|
    let r := 1 / 2 ^ 48 * spread T
    (Near r (spread T) (1 / 2 ^ 590) (R * T).a 1 ∧ Near r (2 * (b * e) / D) (1 / 2 ^ 590) (R * T).b 0 ∧
      Near r (2 * (c * e + f * b) / D) (1 / 2 ^ 590) (R * T).c 0 ∧ Near r (2 * (a * d) / D) (1 / 2 ^ 590) (R * T).d 0 ∧
      Near r (spread T) (1 / 2 ^ 590) (R * T).e 1 ∧ Near r (2 * (c * d + f * a) / D) (1 / 2 ^ 590) (R * T).f 0) ∧
    (Near r (spread T) (1 / 2 ^ 590) (T * R).a 1 ∧ Near r (2 * (a * b) / D) (1 / 2 ^ 590) (T * R).b 0 ∧
      Near r ((a * (c * e + f * b) + b * (c * d + f * a)) / D + c) (1 / 2 ^ 590) (T * R).c 0 ∧
      Near r (2 * (d * e) / D) (1 / 2 ^ 590) (T * R).d 0 ∧ Near r (spread T) (1 / 2 ^ 590) (T * R).e 1 ∧
      Near r ((d * (c * e + f * b) + e * (c * d + f * a)) / D + f) (1 / 2 ^ 590) (T * R).f 0) := by
  have hD := invert_det_big he hT hK h
  obtain ⟨hne, ra, rb, rd, re, rc, rf⟩ := C79_inverse eps he T R hT hK h
  have hDp : 0 < |exactDet T| := abs_pos.mpr hne
  have κ1 : 1 ≤ spread T := by
    unfold spread
    rw [le_div_iff₀ hDp, one_mul]
    exact exactDet_le T
  have κ2 : 2 * (1 / 2 ^ 51) * spread T ≤ 1 / 4 := by
    have : spread T ≤ 2 ^ 48 := (div_le_iff₀ hDp).mpr hK
    calc 2 * (1 / 2 ^ 51) * spread T ≤ 2 * (1 / 2 ^ 51) * 2 ^ 48 := mul_le_mul_of_nonneg_left this (by norm_num)
      _ ≤ 1 / 4 := by norm_num
  obtain ⟨ta, tb, tc, td, te, tf⟩ := hT
  have hmul : ∀ {x y : ℝ}, |x| ≤ 2 ^ 200 → |y| ≤ 2 ^ 200 → |x * y| ≤ 2 ^ 400 := by
    intro x y h1 h2
    rw [abs_mul, show (2 : ℝ) ^ 400 = 2 ^ 200 * 2 ^ 200 from by rw [← pow_add]]
    exact mul_le_mul h1 h2 (abs_nonneg _) (two_pow_pos 200).le
  -- sizes of the entries of the inverse
  have d602 : ∀ x : ℝ, x ≤ 2 ^ 401 → x / |exactDet T| ≤ 2 ^ 602 := by
    intro x hx
    rw [div_le_iff₀ hDp]
    have e1 : (2 : ℝ) ^ 602 * (1 / 2 ^ 201) = 2 ^ 401 := by
      rw [mul_one_div, div_eq_iff (two_pow_pos 201).ne', ← pow_add]
    have e2 := mul_le_mul_of_nonneg_left hD (two_pow_pos 602).le
    rw [e1] at e2
    exact hx.trans e2
  have h401 : ∀ x : ℝ, |x| ≤ 2 ^ 200 → |x| ≤ 2 ^ 401 := fun x hx => hx.trans (pow_le_of_le (by norm_num))
  have s401 : ∀ x y : ℝ, |x| ≤ 2 ^ 400 → |y| ≤ 2 ^ 400 → |x| + |y| ≤ 2 ^ 401 := by
    intro x y h1 h2
    have e3 : (2 : ℝ) ^ 401 = 2 * 2 ^ 400 := by rw [show (401 : ℕ) = 1 + 400 from rfl, pow_add]; norm_num
    rw [e3]
    generalize (2 : ℝ) ^ 400 = P at *
    linarith only [h1, h2]
  have n0 : (0 : ℝ) ≤ 1 / 2 ^ 800 := by have := two_pow_pos 800; positivity
  have n2 : (0 : ℝ) < 1 / 2 ^ 51 := by norm_num
  have n3 : (1 : ℝ) / 2 ^ 51 ≤ 1 / 100 := by norm_num
  have u50' : (1 : ℝ) / 2 ^ 50 = 2 * (1 / 2 ^ 51) := by norm_num
  have u49' : (1 : ℝ) / 2 ^ 49 = 4 * (1 / 2 ^ 51) := by norm_num
  have u48' : (1 : ℝ) / 2 ^ 48 = 8 * (1 / 2 ^ 51) := by norm_num
  -- entries of the inverse as `id_coord` wants them
  have weak : ∀ {R' r' : ℝ}, |R' - r'| ≤ 1 / 2 ^ 50 * spread T * |r'| + 1 / 2 ^ 800 →
      |R' - r'| ≤ 4 * (1 / 2 ^ 51) * spread T * |r'| + 1 / 2 ^ 800 := by
    intro R' r' h
    refine h.trans (add_le_add ?_ le_rfl)
    rw [u50']
    have := mul_nonneg (zero_le_one.trans κ1) (abs_nonneg r')
    nlinarith
  unfold Near at ra rb rd re rc rf
  rw [← abs_neg (T.b.real / exactDet T)] at rb
  rw [← abs_neg (T.d.real / exactDet T)] at rd
  have ra := weak ra
  have rb := weak rb
  have rd := weak rd
  have re := weak re
  rw [u49'] at rc rf
  have wc : |(T.f.real * T.b.real - T.c.real * T.e.real) / exactDet T| ≤ (|T.c.real * T.e.real| + |T.f.real * T.b.real|) / |exactDet T| := by
    rw [abs_div]
    refine div_le_div_of_nonneg_right ?_ hDp.le
    rw [add_comm]
    exact abs_sub _ _
  have wf : |(T.c.real * T.d.real - T.f.real * T.a.real) / exactDet T| ≤ (|T.c.real * T.d.real| + |T.f.real * T.a.real|) / |exactDet T| := by
    rw [abs_div]
    exact div_le_div_of_nonneg_right (abs_sub _ _) hDp.le
  have wa : |T.e.real / exactDet T| ≤ 2 ^ 602 := by rw [abs_div]; exact d602 _ (h401 _ te)
  have wb : |-(T.b.real / exactDet T)| ≤ 2 ^ 602 := by rw [abs_neg, abs_div]; exact d602 _ (h401 _ tb)
  have wd : |-(T.d.real / exactDet T)| ≤ 2 ^ 602 := by rw [abs_neg, abs_div]; exact d602 _ (h401 _ td)
  have we : |T.a.real / exactDet T| ≤ 2 ^ 602 := by rw [abs_div]; exact d602 _ (h401 _ ta)
  have wc' := d602 _ (s401 _ _ (hmul tc te) (hmul tf tb))
  have wf' := d602 _ (s401 _ _ (hmul tc td) (hmul tf ta))
  -- products stay in range
  have rng : ∀ {x R' r' W : ℝ}, |x| ≤ 2 ^ 200 → |r'| ≤ W → W ≤ 2 ^ 602 → |R' - r'| ≤ 4 * (1 / 2 ^ 51) * spread T * W + 1 / 2 ^ 800 →
      |x * R'| ≤ 2 ^ 1000 ∧ |R'| ≤ 2 ^ 1000 := by
    intro x R' r' W hx hr hW hR
    have c := (back_shift n2 n3 n0 hr hR κ1 κ2).2
    have c1 : (1 : ℝ) / 2 ^ 800 ≤ 2 ^ 602 := (div_le_one (two_pow_pos 800)).mpr (one_le_pow₀ (by norm_num)) |>.trans (one_le_pow₀ (by norm_num))
    have c2 : |R'| ≤ 2 ^ 604 := by
      have e3 : (2 : ℝ) ^ 604 = 4 * 2 ^ 602 := by rw [show (604 : ℕ) = 2 + 602 from rfl, pow_add]; norm_num
      rw [e3]
      have := two_pow_pos 602
      generalize (2 : ℝ) ^ 602 = P at *
      generalize (1 : ℝ) / 2 ^ 800 = z at *
      linarith only [c, c1, hW, this]
    refine ⟨?_, c2.trans (pow_le_of_le (by norm_num))⟩
    rw [abs_mul]
    refine (mul_le_mul hx c2 (abs_nonneg _) (two_pow_pos 200).le).trans ?_
    rw [← pow_add]
    exact pow_le_of_le (by norm_num)
  have small : ∀ x y : ℝ, |x| ≤ 2 ^ 200 → |y| ≤ 2 ^ 200 →
      2 * (|x| * (1 / 2 ^ 800)) + 2 * (|y| * (1 / 2 ^ 800)) + 2 * (1 / 2 ^ 800) + 1 / 2 ^ 1072 ≤ 1 / 2 ^ 590 := by
    intro x y hx hy
    have e1 : (2 : ℝ) ^ 200 * (1 / 2 ^ 800) = 1 / 2 ^ 600 := by
      rw [mul_one_div, div_eq_div_iff (two_pow_pos 800).ne' (two_pow_pos 600).ne', one_mul, ← pow_add]
    have e2 := mul_le_mul_of_nonneg_right hx n0
    have e3 := mul_le_mul_of_nonneg_right hy n0
    rw [e1] at e2 e3
    have e4 : (1 : ℝ) / 2 ^ 800 ≤ 1 / 2 ^ 600 := inv_pow_le (by norm_num)
    have e5 : (1 : ℝ) / 2 ^ 1072 ≤ 1 / 2 ^ 600 := inv_pow_le (by norm_num)
    have e6 : (1 : ℝ) / 2 ^ 590 = 1024 * (1 / 2 ^ 600) := by
      rw [show (600 : ℕ) = 590 + 10 from rfl, pow_add]
      have := (two_pow_pos 590).ne'
      field_simp
      norm_num
    have e7 : (0 : ℝ) < 1 / 2 ^ 600 := by have := two_pow_pos 600; positivity
    rw [e6]
    generalize (1 : ℝ) / 2 ^ 600 = P at *
    generalize |x| * (1 / 2 ^ 800) = q1 at *
    generalize |y| * (1 / 2 ^ 800) = q2 at *
    generalize (1 : ℝ) / 2 ^ 800 = P2 at *
    generalize (1 : ℝ) / 2 ^ 1072 = P3 at *
    linarith only [e2, e3, e4, e5, e7]
  -- entries of products
  have two : ∀ x a y d : Double, |x.real * a.real| ≤ 2 ^ 1000 → |y.real * d.real| ≤ 2 ^ 1000 →
      |(x * a + y * d).real - (x.real * a.real + y.real * d.real + 0)| ≤
        1 / 2 ^ 51 * (|x.real * a.real| + |y.real * d.real| + |(0 : ℝ)|) + 1 / 2 ^ 1072 := by
    intro x a y d h1 h2
    rw [add_zero, abs_zero, add_zero]
    exact near_round (add_nonneg (abs_nonneg _) (abs_nonneg _)) (dot_in h1 h2).1 (by norm_num) (by norm_num)
  have three : ∀ x a y d c : Double, |x.real * a.real| ≤ 2 ^ 1000 → |y.real * d.real| ≤ 2 ^ 1000 → |c.real| ≤ 2 ^ 1000 →
      |(x * a + y * d + c).real - (x.real * a.real + y.real * d.real + c.real)| ≤
        1 / 2 ^ 51 * (|x.real * a.real| + |y.real * d.real| + |c.real|) + 1 / 2 ^ 1072 := by
    intro x a y d c h1 h2 h3
    exact near_round (add_nonneg (add_nonneg (abs_nonneg _) (abs_nonneg _)) (abs_nonneg _)) (sum3_in h1 h2 h3) (by norm_num)
      (by norm_num)
  have z0 : |(0 : ℝ) - 0| ≤ 4 * (1 / 2 ^ 51) * spread T * 0 + 1 / 2 ^ 800 := by simpa using n0
  have z1 : |(0 : ℝ)| ≤ 0 := by simp
  have ex : ∀ z : ℝ, |z - z| ≤ 4 * (1 / 2 ^ 51) * spread T * |z| + 1 / 2 ^ 800 := by
    intro z
    rw [sub_self, abs_zero]
    exact add_nonneg (mul_nonneg (mul_nonneg (by norm_num) (zero_le_one.trans κ1)) (abs_nonneg _)) n0
  have t1000 : ∀ {x : ℝ}, |x| ≤ 2 ^ 200 → |x| ≤ 2 ^ 1000 := fun hx => hx.trans (pow_le_of_le (by norm_num))
  -- `x * R1 + y * R2` and `R1 * x + R2 * y`
  have fin2 : ∀ {x y R1 R2 : Double} {r1 r2 v S : ℝ}, |x.real| ≤ 2 ^ 200 → |y.real| ≤ 2 ^ 200 → |r1| ≤ 2 ^ 602 → |r2| ≤ 2 ^ 602 →
      |R1.real - r1| ≤ 4 * (1 / 2 ^ 51) * spread T * |r1| + 1 / 2 ^ 800 → |R2.real - r2| ≤ 4 * (1 / 2 ^ 51) * spread T * |r2| + 1 / 2 ^ 800 →
      x.real * r1 + y.real * r2 = v → |x.real| * |r1| + |y.real| * |r2| = S →
      Near (1 / 2 ^ 48 * spread T) S (1 / 2 ^ 590) (x * R1 + y * R2) v ∧ Near (1 / 2 ^ 48 * spread T) S (1 / 2 ^ 590) (R1 * x + R2 * y) v := by
    intro x y R1 R2 r1 r2 v S hx hy w1 w2 h1 h2 hv hS
    have o := two x R1 y R2 (rng hx le_rfl w1 h1).1 (rng hy le_rfl w2 h2).1
    have o' := two R1 x R2 y (by rw [mul_comm]; exact (rng hx le_rfl w1 h1).1) (by rw [mul_comm]; exact (rng hy le_rfl w2 h2).1)
    rw [mul_comm R1.real, mul_comm R2.real] at o'
    have f := fun out ho => id_coord (η := 1 / 2 ^ 1072) (out := out) (v := v) n2 n3 n0 le_rfl h1 le_rfl h2 z1 z0 κ1 κ2 ho (by rw [add_zero]; exact hv)
    unfold Near
    rw [u48', ← hS, ← add_zero (|x.real| * |r1| + |y.real| * |r2|)]
    have g := small x.real y.real hx hy
    exact ⟨(f _ o).trans (add_le_add le_rfl g), (f _ o').trans (add_le_add le_rfl g)⟩
  have fin3 : ∀ {x y R1 R2 R3 : Double} {r1 r2 r3 W1 W2 W3 v S : ℝ}, |x.real| ≤ 2 ^ 200 → |y.real| ≤ 2 ^ 200 →
      |r1| ≤ W1 → |r2| ≤ W2 → |r3| ≤ W3 → W1 ≤ 2 ^ 602 → W2 ≤ 2 ^ 602 → W3 ≤ 2 ^ 602 →
      |R1.real - r1| ≤ 4 * (1 / 2 ^ 51) * spread T * W1 + 1 / 2 ^ 800 → |R2.real - r2| ≤ 4 * (1 / 2 ^ 51) * spread T * W2 + 1 / 2 ^ 800 →
      |R3.real - r3| ≤ 4 * (1 / 2 ^ 51) * spread T * W3 + 1 / 2 ^ 800 →
      x.real * r1 + y.real * r2 + r3 = v → |x.real| * W1 + |y.real| * W2 + W3 = S →
      Near (1 / 2 ^ 48 * spread T) S (1 / 2 ^ 590) (x * R1 + y * R2 + R3) v ∧
      Near (1 / 2 ^ 48 * spread T) S (1 / 2 ^ 590) (R1 * x + R2 * y + R3) v := by
    intro x y R1 R2 R3 r1 r2 r3 W1 W2 W3 v S hx hy w1 w2 w3 w1' w2' w3' h1 h2 h3 hv hS
    have o := three x R1 y R2 R3 (rng hx w1 w1' h1).1 (rng hy w2 w2' h2).1 (rng hx w3 w3' h3).2
    have o' := three R1 x R2 y R3 (by rw [mul_comm]; exact (rng hx w1 w1' h1).1) (by rw [mul_comm]; exact (rng hy w2 w2' h2).1)
      (rng hx w3 w3' h3).2
    rw [mul_comm R1.real, mul_comm R2.real] at o'
    have f := fun out ho => id_coord (η := 1 / 2 ^ 1072) (out := out) (v := v) n2 n3 n0 w1 h1 w2 h2 w3 h3 κ1 κ2 ho hv
    unfold Near
    rw [u48', ← hS]
    have g := small x.real y.real hx hy
    exact ⟨(f _ o).trans (add_le_add le_rfl g), (f _ o').trans (add_le_add le_rfl g)⟩
  have h602 : ∀ {x : ℝ}, |x| ≤ 2 ^ 200 → |x| ≤ 2 ^ 602 := fun hx => hx.trans (pow_le_of_le (by norm_num))
  intro a b c d e f D r
  refine ⟨⟨?_, ?_, ?_, ?_, ?_, ?_⟩, ?_, ?_, ?_, ?_, ?_, ?_⟩
  · refine (fin2 ta td wa wb ra rb ?_ ?_).2
    · field_simp; unfold exactDet; ring
    · simp only [abs_neg, abs_div, spread, detSize, abs_mul]; ring
  · refine (fin2 tb te wa wb ra rb ?_ ?_).2
    · ring
    · simp only [abs_neg, abs_div, D, b, e]; ring
  · refine (fin3 tc tf le_rfl le_rfl wc wa wb wc' ra rb rc ?_ ?_).2
    · ring
    · simp only [abs_neg, abs_div, abs_mul, D, b, c, e, f]; ring
  · refine (fin2 ta td wd we rd re ?_ ?_).2
    · ring
    · simp only [abs_neg, abs_div, D, a, d]; ring
  · refine (fin2 tb te wd we rd re ?_ ?_).2
    · field_simp; unfold exactDet; ring
    · simp only [abs_neg, abs_div, spread, detSize, abs_mul]; ring
  · refine (fin3 tc tf le_rfl le_rfl wf wd we wf' rd re rf ?_ ?_).2
    · ring
    · simp only [abs_neg, abs_div, abs_mul, D, a, c, d, f]; ring
  · refine (fin2 ta tb wa wd ra rd ?_ ?_).1
    · field_simp; unfold exactDet; ring
    · simp only [abs_neg, abs_div, spread, detSize, abs_mul]; ring
  · refine (fin2 ta tb wb we rb re ?_ ?_).1
    · ring
    · simp only [abs_neg, abs_div, D, a, b]; ring
  · refine (fin3 ta tb wc wf le_rfl wc' wf' (h602 tc) rc rf (ex _) ?_ ?_).1
    · field_simp; unfold exactDet; ring
    · simp only [abs_mul, D, a, b, c, d, e, f]; ring
  · refine (fin2 td te wa wd ra rd ?_ ?_).1
    · ring
    · simp only [abs_neg, abs_div, D, d, e]; ring
  · refine (fin2 td te wb we rb re ?_ ?_).1
    · field_simp; unfold exactDet; ring
    · simp only [abs_neg, abs_div, spread, detSize, abs_mul]; ring
  · refine (fin3 td te wc wf le_rfl wc' wf' (h602 tf) rc rf (ex _) ?_ ?_).1
    · field_simp; unfold exactDet; ring
    · simp only [abs_mul, D, a, b, c, d, e, f]; ring

/-- The transform `[3 4 1 / -4 3 2]`, whose inverse does not bring points back (C15), meets the hypotheses. -/
def exT79 : Affine Double := ⟨dbl 3, dbl 4, dbl 1, dbl (-4), dbl 3, dbl 2⟩

example : WithinT (2 ^ 200) exT79 ∧ detSize exT79 ≤ 2 ^ 48 * |exactDet exT79| ∧ spread exT79 = 1 ∧
    ∃ R, exT79.invert (dbl (1 / 100000)) = .ok R := by
  have n1 : (dbl 1).real = 1 := by simpa using dbl_int 1 (by norm_num)
  have n2 : (dbl 2).real = 2 := by simpa using dbl_int 2 (by norm_num)
  have n3 : (dbl 3).real = 3 := by simpa using dbl_int 3 (by norm_num)
  have n4 : (dbl 4).real = 4 := by simpa using dbl_int 4 (by norm_num)
  have m4 : (dbl (-4)).real = -4 := by simpa using dbl_int (-4) (by norm_num)
  obtain ⟨h1, h2⟩ := dbl_eps
  have hw : ∀ n : ℕ, 5 ≤ n → WithinT (2 ^ n) exT79 := by
    intro n hn
    have h32 : (32 : ℝ) ≤ 2 ^ n := le_trans (by norm_num) (pow_le_real hn)
    refine ⟨?_, ?_, ?_, ?_, ?_, ?_⟩ <;> simp only [exT79, n3, n4, m4, n1, n2] <;> refine le_trans ?_ h32 <;> norm_num
  have hd : exactDet exT79 = 25 := by simp only [exactDet, exT79, n3, n4, m4]; norm_num
  have hs : detSize exT79 = 25 := by simp only [detSize, exT79, n3, n4, m4]; norm_num
  have e0 : (0 : Double) < dbl (1 / 100000) := by
    rw [← real_lt, real_zero]; exact lt_of_lt_of_le (by norm_num) h1
  refine ⟨hw _ (by norm_num), ?_, ?_, ?_⟩
  · rw [hs, hd]; norm_num
  · rw [spread, hs, hd]; norm_num
  · refine (C79_inverse_raises _ e0 exT79 (hw _ (by norm_num))).2.2 ?_
    rw [hs, hd]
    have : (1 : ℝ) / 2 ^ 1072 ≤ 1 / 2 ^ 1 := inv_pow_le (by norm_num)
    generalize (1 : ℝ) / 2 ^ 1072 = g at *
    norm_num at *
    linarith

end Planar
