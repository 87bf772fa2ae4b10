import Verif.Lemmas.FloatUnit
import Verif.Lemmas.TriDouble
import Verif.Spec.DoubleAffine
/- Error bounds for transforms in double precision. -/
set_option linter.unusedSectionVars false
namespace Planar
open Spec

section Abstract

/-- Two products and their sum. -/
theorem sum2E {X Y m n s u η : ℝ} (hu : 0 ≤ u) (hu' : u ≤ 1 / 1000) (hη : 0 ≤ η) (h1 : |m - X| ≤ u * |X| + η)
    (h2 : |n - Y| ≤ u * |Y| + η) (h3 : |s - (m + n)| ≤ u * |m + n| + η) :
    |s - (X + Y)| ≤ 201 / 100 * u * (|X| + |Y|) + 301 / 100 * η := by
  have a0 := abs_nonneg X
  have b0 := abs_nonneg Y
  have e : |m + n - (X + Y)| ≤ u * (|X| + |Y|) + 2 * η := by
    have : m + n - (X + Y) = (m - X) + (n - Y) := by ring
    rw [this]; refine (abs_add_le _ _).trans ?_; linarith
  have f := abs_sub_abs_le_abs_sub (m + n) (X + Y)
  have g := abs_add_le X Y
  have h : u * |m + n| ≤ u * ((1 + u) * (|X| + |Y|) + 2 * η) := mul_le_mul_of_nonneg_left (by linarith) hu
  have k : u * (u * (|X| + |Y|)) ≤ 1 / 1000 * (u * (|X| + |Y|)) :=
    mul_le_mul_of_nonneg_right hu' (mul_nonneg hu (by linarith))
  have l : u * η ≤ 1 / 1000 * η := mul_le_mul_of_nonneg_right hu' hη
  have t := abs_sub_le s (m + n) (X + Y)
  have p : 0 ≤ u * (|X| + |Y|) := mul_nonneg hu (by linarith)
  linarith

/-- Two products and their difference. -/
theorem diff2E {X Y m n s u η : ℝ} (hu : 0 ≤ u) (hu' : u ≤ 1 / 1000) (hη : 0 ≤ η) (h1 : |m - X| ≤ u * |X| + η)
    (h2 : |n - Y| ≤ u * |Y| + η) (h3 : |s - (m - n)| ≤ u * |m - n| + η) :
    |s - (X - Y)| ≤ 201 / 100 * u * (|X| + |Y|) + 301 / 100 * η := by
  have := sum2E (X := X) (Y := -Y) (m := m) (n := -n) (s := s) hu hu' hη h1
    (by rw [← neg_add', abs_neg, abs_neg, ← sub_eq_add_neg] ; exact h2) (by rw [← sub_eq_add_neg]; exact h3)
  rw [abs_neg, ← sub_eq_add_neg] at this
  exact this

/-- Adding a third number. -/
theorem sum3E {X Z s t W u η : ℝ} (hu : 0 ≤ u) (hu' : u ≤ 1 / 1000) (hη : 0 ≤ η) (hX : |X| ≤ W)
    (h1 : |s - X| ≤ 201 / 100 * u * W + 301 / 100 * η) (h2 : |t - (s + Z)| ≤ u * |s + Z| + η) :
    |t - (X + Z)| ≤ 302 / 100 * u * (W + |Z|) + 402 / 100 * η := by
  have z0 := abs_nonneg Z
  have w0 := (abs_nonneg _).trans hX
  have e : |s + Z - (X + Z)| ≤ 201 / 100 * u * W + 301 / 100 * η := by
    have : s + Z - (X + Z) = s - X := by ring
    rw [this]; exact h1
  have f := abs_sub_abs_le_abs_sub (s + Z) (X + Z)
  have g := abs_add_le X Z
  have h : u * |s + Z| ≤ u * (W + |Z| + (201 / 100 * u * W + 301 / 100 * η)) := mul_le_mul_of_nonneg_left (by linarith) hu
  have k : u * (u * W) ≤ 1 / 1000 * (u * W) := mul_le_mul_of_nonneg_right hu' (mul_nonneg hu w0)
  have l : u * η ≤ 1 / 1000 * η := mul_le_mul_of_nonneg_right hu' hη
  have t' := abs_sub_le t (s + Z) (X + Z)
  have uZ := mul_nonneg hu z0
  have uW := mul_nonneg hu w0
  linarith

/-- The reciprocal of a computed determinant. -/
theorem recipE {D d i κ u : ℝ} (hu : 0 < u) (hD : D ≠ 0) (hκ : 1 ≤ κ) (hκu : u * κ ≤ 1 / 32)
    (hd : |d - D| ≤ 3 * u * κ * |D|) (hi : |i - 1 / d| ≤ 1001 / 1000 * u * |1 / d|) :
    |i - 1 / D| ≤ 9 / 2 * (u * κ) * |1 / D| := by
  have D0 : 0 < |D| := abs_pos.mpr hD
  have uκ : u ≤ u * κ := le_mul_of_one_le_right hu.le hκ
  have hd' : 29 / 32 * |D| ≤ |d| := by
    have h1 := abs_sub_abs_le_abs_sub D d
    rw [abs_sub_comm] at h1
    have h2 : 3 * u * κ * |D| ≤ 3 / 32 * |D| := mul_le_mul_of_nonneg_right (by linarith) D0.le
    linarith
  have d0 : 0 < |d| := lt_of_lt_of_le (by linarith) hd'
  have dne : d ≠ 0 := abs_pos.mp d0
  have q : |1 / d| ≤ 32 / 29 * |1 / D| := by
    rw [abs_div, abs_div, abs_one, div_le_iff₀ d0]
    have : 32 / 29 * (1 / |D|) * |d| = 32 / 29 * |d| / |D| := by ring
    rw [this, le_div_iff₀ D0]; linarith
  have e1 : |1 / d - 1 / D| ≤ 96 / 29 * (u * κ) * |1 / D| := by
    have : 1 / d - 1 / D = (D - d) * (1 / D) * (1 / d) := by field_simp
    rw [this, abs_mul, abs_mul, abs_sub_comm]
    have h1 : |d - D| * |1 / D| ≤ 3 * (u * κ) := by
      calc |d - D| * |1 / D| ≤ 3 * u * κ * |D| * |1 / D| := mul_le_mul_of_nonneg_right hd (abs_nonneg _)
        _ = 3 * (u * κ) * (|D| * |1 / D|) := by ring
        _ = 3 * (u * κ) := by rw [← abs_mul, mul_one_div_cancel hD, abs_one, mul_one]
    calc |d - D| * |1 / D| * |1 / d| ≤ 3 * (u * κ) * (32 / 29 * |1 / D|) :=
          mul_le_mul h1 q (abs_nonneg _) (by positivity)
      _ = _ := by ring
  have e2 : 1001 / 1000 * u * |1 / d| ≤ 1001 / 1000 * (u * κ) * (32 / 29 * |1 / D|) :=
    mul_le_mul (by linarith) q (abs_nonneg _) (by positivity)
  have t := abs_sub_le i (1 / d) (1 / D)
  have p : 0 ≤ u * κ * |1 / D| := by positivity
  linarith

/-- An entry of the inverse. -/
theorem entryE {e i I r κ u η : ℝ} (hu : 0 < u) (hκ : 1 ≤ κ) (hκu : u * κ ≤ 1 / 32)
    (hi : |i - I| ≤ 9 / 2 * (u * κ) * |I|) (hr : |r - e * i| ≤ u * |e * i| + η) :
    |r - e * I| ≤ 6 * (u * κ) * |e * I| + η := by
  have uκ : u ≤ u * κ := le_mul_of_one_le_right hu.le hκ
  have h1 : |e * i - e * I| ≤ 9 / 2 * (u * κ) * |e * I| := by
    rw [← mul_sub, abs_mul, abs_mul]
    calc |e| * |i - I| ≤ |e| * (9 / 2 * (u * κ) * |I|) := mul_le_mul_of_nonneg_left hi (abs_nonneg _)
      _ = _ := by ring
  have h2 := abs_sub_abs_le_abs_sub (e * i) (e * I)
  have p := abs_nonneg (e * I)
  have h3 : 9 / 2 * (u * κ) * |e * I| ≤ 9 / 64 * |e * I| := mul_le_mul_of_nonneg_right (by linarith) p
  have h4 : u * |e * i| ≤ u * κ * (73 / 64 * |e * I|) := mul_le_mul uκ (by linarith) (abs_nonneg _) (by positivity)
  have t := abs_sub_le r (e * i) (e * I)
  have pp : 0 ≤ u * κ * |e * I| := by positivity
  linarith

/-- A translation entry of the inverse: the difference of two products with computed entries. -/
theorem shiftE {c f A B a b m n s κ u η : ℝ} (hu : 0 < u) (hu' : u ≤ 1 / 1000) (hκ : 1 ≤ κ) (hκu : u * κ ≤ 1 / 32) (hη : 0 ≤ η)
    (ha : |a - A| ≤ 6 * (u * κ) * |A| + η) (hb : |b - B| ≤ 6 * (u * κ) * |B| + η)
    (hm : |m - c * a| ≤ u * |c * a| + η) (hn : |n - f * b| ≤ u * |f * b| + η)
    (hs : |s - (m - n)| ≤ u * |m - n| + η) :
    |s - (c * A - f * B)| ≤ 9 * (u * κ) * (|c * A| + |f * B|) + 4 * η * (|c| + |f| + 1) := by
  have uκ : u ≤ u * κ := le_mul_of_one_le_right hu.le hκ
  have k := diff2E hu.le hu' hη hm hn hs
  have one : ∀ c a A : ℝ, |a - A| ≤ 6 * (u * κ) * |A| + η → |c * a - c * A| ≤ 6 * (u * κ) * |c * A| + η * |c| := by
    intro c a A h
    rw [← mul_sub, abs_mul, abs_mul]
    calc |c| * |a - A| ≤ |c| * (6 * (u * κ) * |A| + η) := mul_le_mul_of_nonneg_left h (abs_nonneg _)
      _ = _ := by ring
  have h1 := one c a A ha
  have h2 := one f b B hb
  have g1 := abs_sub_abs_le_abs_sub (c * a) (c * A)
  have g2 := abs_sub_abs_le_abs_sub (f * b) (f * B)
  have pA := abs_nonneg (c * A)
  have pB := abs_nonneg (f * B)
  have pc := abs_nonneg c
  have pf := abs_nonneg f
  have e : |c * a - f * b - (c * A - f * B)| ≤ 6 * (u * κ) * (|c * A| + |f * B|) + η * (|c| + |f|) := by
    have : c * a - f * b - (c * A - f * B) = (c * a - c * A) - (f * b - f * B) := by ring
    rw [this]; refine (abs_sub _ _).trans ?_; linarith
  have q : 6 * (u * κ) * (|c * A| + |f * B|) ≤ 3 / 16 * (|c * A| + |f * B|) :=
    mul_le_mul_of_nonneg_right (by linarith) (by linarith)
  have w : 201 / 100 * u * (|c * a| + |f * b|) ≤ 201 / 100 * u * (19 / 16 * (|c * A| + |f * B|) + η * (|c| + |f|)) :=
    mul_le_mul_of_nonneg_left (by linarith) (by positivity)
  have w2 : u * (|c * A| + |f * B|) ≤ u * κ * (|c * A| + |f * B|) := mul_le_mul_of_nonneg_right uκ (by linarith)
  have ηc : 0 ≤ η * (|c| + |f|) := by positivity
  have w3 : u * (η * (|c| + |f|)) ≤ 1 / 1000 * (η * (|c| + |f|)) := mul_le_mul_of_nonneg_right hu' ηc
  have t := abs_sub_le s (c * a - f * b) (c * A - f * B)
  have pp : 0 ≤ u * κ * (|c * A| + |f * B|) := by positivity
  linarith

end Abstract

theorem two_pow_pos (n : ℕ) : (0 : ℝ) < 2 ^ n := by positivity

/-- Products in range. -/
theorem mul_in {x a : Double} {n : ℕ} (hn : n ≤ 1000) (h : |x.real * a.real| ≤ 2 ^ n) :
    |(x * a).real - x.real * a.real| ≤ uR * |x.real * a.real| + ηR ∧ |(x * a).real| ≤ 2 ^ (n + 1) := by
  have h1 := mul_ok x a (h.trans (pow_le_real (by omega)))
  exact ⟨h1, slack_pow h1 h⟩

theorem dot_in {x a y d : Double} (h1 : |x.real * a.real| ≤ 2 ^ 1000) (h2 : |y.real * d.real| ≤ 2 ^ 1000) :
    |(x * a + y * d).real - (x.real * a.real + y.real * d.real)| ≤
      201 / 100 * uR * (|x.real * a.real| + |y.real * d.real|) + 301 / 100 * ηR ∧ |(x * a + y * d).real| ≤ 2 ^ 1003 := by
  obtain ⟨m, m'⟩ := mul_in le_rfl h1
  obtain ⟨n, n'⟩ := mul_in le_rfl h2
  have b := add_pow m' n'
  have s := add_ok (x * a) (y * d) (b.trans (pow_le_real (by norm_num)))
  exact ⟨sum2E uR_pos.le uR_small ηR_pos m n s, slack_pow s b⟩

theorem cross_in {x a y d : Double} (h1 : |x.real * a.real| ≤ 2 ^ 1000) (h2 : |y.real * d.real| ≤ 2 ^ 1000) :
    |(x * a - y * d).real - (x.real * a.real - y.real * d.real)| ≤
      201 / 100 * uR * (|x.real * a.real| + |y.real * d.real|) + 301 / 100 * ηR := by
  obtain ⟨m, m'⟩ := mul_in le_rfl h1
  obtain ⟨n, n'⟩ := mul_in le_rfl h2
  have b : |(x * a).real - (y * d).real| ≤ 2 ^ 1002 := by
    rw [sub_eq_add_neg]; exact add_pow m' (by rw [abs_neg]; exact n')
  have s := sub_ok (x * a) (y * d) (b.trans (pow_le_real (by norm_num)))
  exact diff2E uR_pos.le uR_small ηR_pos m n (by have := ηR_pos; linarith)

theorem sum3_in {x a y d c : Double} (h1 : |x.real * a.real| ≤ 2 ^ 1000) (h2 : |y.real * d.real| ≤ 2 ^ 1000)
    (h3 : |c.real| ≤ 2 ^ 1000) :
    |(x * a + y * d + c).real - (x.real * a.real + y.real * d.real + c.real)| ≤
      302 / 100 * uR * (|x.real * a.real| + |y.real * d.real| + |c.real|) + 402 / 100 * ηR := by
  obtain ⟨m, m'⟩ := dot_in h1 h2
  have b := add_pow m' (h3.trans (pow_le_real (show 1000 ≤ 1003 by norm_num)))
  have s := add_ok (x * a + y * d) c (b.trans (pow_le_real (by norm_num)))
  exact sum3E uR_pos.le uR_small ηR_pos (abs_add_le _ _) m s

theorem u51 : 1 / (2 : ℝ) ^ 51 = 4 * uR := by norm_num [uR]
theorem u50 : 1 / (2 : ℝ) ^ 50 = 8 * uR := by norm_num [uR]
theorem u49 : 1 / (2 : ℝ) ^ 49 = 16 * uR := by norm_num [uR]
theorem η1072 : 1 / (2 : ℝ) ^ 1072 = 8 * ηR := by
  have key : ∀ n : ℕ, 1 / (2 : ℝ) ^ n = 8 * (1 / 2 ^ (n + 3)) := by
    intro n; rw [inv_pow_split]; ring
  exact key 1072

/-- The bounds with round numbers. -/
theorem near_round {t X W k l : ℝ} (hW : 0 ≤ W) (h : |t - X| ≤ k * uR * W + l * ηR) (hk : k ≤ 4) (hl : l ≤ 8) :
    |t - X| ≤ 1 / 2 ^ 51 * W + 1 / 2 ^ 1072 := by
  rw [u51, η1072]
  have h1 : k * uR * W ≤ 4 * uR * W :=
    mul_le_mul_of_nonneg_right (mul_le_mul_of_nonneg_right hk uR_pos.le) hW
  have h2 : l * ηR ≤ 8 * ηR := mul_le_mul_of_nonneg_right hl ηR_pos
  linarith


/-- Powers that are far below everything else. -/
theorem ηR_le {n : ℕ} (hn : n ≤ 1012) : 1000 * ηR ≤ uR * (1 / 2 ^ n) := by
  have e : ηR = 1 / 2 ^ (1022 - n) * (uR * (1 / 2 ^ n)) := by
    have key : ∀ i j k l : ℕ, l = i + (j + k) → 1 / (2 : ℝ) ^ l = 1 / 2 ^ i * (1 / 2 ^ j * (1 / 2 ^ k)) := by
      intro i j k l h; rw [h, inv_pow_split, inv_pow_split]
    exact key (1022 - n) 53 n 1075 (by omega)
  have h1 : 1000 * (1 / (2 : ℝ) ^ (1022 - n)) ≤ 1 := by
    calc 1000 * (1 / (2 : ℝ) ^ (1022 - n)) ≤ 1000 * (1 / 2 ^ 10) :=
          mul_le_mul_of_nonneg_left (inv_pow_le (by omega)) (by norm_num)
      _ ≤ 1 := by norm_num
  have p : 0 ≤ uR * (1 / 2 ^ n) := mul_nonneg uR_pos.le (by positivity)
  calc 1000 * ηR = 1000 * (1 / 2 ^ (1022 - n)) * (uR * (1 / 2 ^ n)) := by rw [mul_assoc, ← e]
    _ ≤ uR * (1 / 2 ^ n) := mul_le_of_le_one_left p h1

/-- What is known about the entries of a computed inverse. -/
structure NearInv (T R : Affine Double) (D κ : ℝ) : Prop where
  det : D ≠ 0
  one : 1 ≤ κ
  small : uR * κ ≤ 1 / 32
  size : κ * |D| = detSize T
  a : |R.a.real - T.e.real * (1 / D)| ≤ 6 * (uR * κ) * |T.e.real * (1 / D)| + ηR
  b : |R.b.real - -T.b.real * (1 / D)| ≤ 6 * (uR * κ) * |-T.b.real * (1 / D)| + ηR
  d : |R.d.real - -T.d.real * (1 / D)| ≤ 6 * (uR * κ) * |-T.d.real * (1 / D)| + ηR
  e : |R.e.real - T.a.real * (1 / D)| ≤ 6 * (uR * κ) * |T.a.real * (1 / D)| + ηR
  c : |R.c.real - (-T.c.real * (T.e.real * (1 / D)) - T.f.real * (-T.b.real * (1 / D)))| ≤
    9 * (uR * κ) * (|-T.c.real * (T.e.real * (1 / D))| + |T.f.real * (-T.b.real * (1 / D))|) +
      4 * ηR * (|-T.c.real| + |T.f.real| + 1)
  f : |R.f.real - (-T.c.real * (-T.d.real * (1 / D)) - T.f.real * (T.a.real * (1 / D)))| ≤
    9 * (uR * κ) * (|-T.c.real * (-T.d.real * (1 / D))| + |T.f.real * (T.a.real * (1 / D))|) +
      4 * ηR * (|-T.c.real| + |T.f.real| + 1)

theorem det_in {T : Affine Double} {n : ℕ} (hn : n ≤ 500) (hT : WithinT (2 ^ n) T) :
    |T.determinant.real - exactDet T| ≤ 201 / 100 * uR * detSize T + 301 / 100 * ηR ∧ detSize T ≤ 2 ^ (n + n + 1) := by
  obtain ⟨a, b, -, d, e, -⟩ := hT
  have h1 := mul_pow_le a e
  have h2 := mul_pow_le b d
  refine ⟨cross_in (h1.trans (pow_le_real (by omega))) (h2.trans (pow_le_real (by omega))), ?_⟩
  unfold detSize
  rw [pow_succ']; linarith

theorem not_degenerate_iff {eps : Double} {T : Affine Double} :
    T.isDegenerate eps = false ↔ eps.real ≤ |T.determinant.real| := by
  unfold Affine.isDegenerate
  rw [decide_eq_false_iff_not, not_lt, ← real_le, pyabs_real]

theorem exactDet_le (T : Affine Double) : |exactDet T| ≤ detSize T := abs_sub _ _

set_option maxHeartbeats 1000000 in
theorem nearInv {eps : Double} {T R : Affine Double} (he : 1 / 2 ^ 200 ≤ eps.real) (hT : WithinT (2 ^ 200) T)
    (hK : detSize T ≤ 2 ^ 48 * |exactDet T|) (h : T.invert eps = .ok R) :
    NearInv T R (exactDet T) (detSize T / |exactDet T|) := by
  have hu := uR_pos
  have hη := ηR_pos
  obtain ⟨hdet, hsize⟩ := det_in (by norm_num) hT
  have hDK := exactDet_le T
  unfold Affine.invert at h
  by_cases hdeg : T.isDegenerate eps = true
  · rw [if_pos hdeg] at h; cases h
  rw [if_neg hdeg] at h
  rw [Bool.not_eq_true, not_degenerate_iff] at hdeg
  have d0 : T.determinant ≠ 0 := by
    intro h0
    rw [h0, real_zero, abs_zero] at hdeg
    have : (0 : ℝ) < 1 / 2 ^ 200 := by positivity
    linarith
  have p200 : (0 : ℝ) < 1 / 2 ^ 200 := by positivity
  have η1 := ηR_le (n := 210) (by norm_num)
  have q210 : 1 / (2 : ℝ) ^ 210 = 1 / 1024 * (1 / 2 ^ 200) := by
    rw [show (210 : ℕ) = 10 + 200 from rfl, inv_pow_split]; norm_num
  obtain ⟨ta, tb, tc, td, te, tf⟩ := hT
  have uK : uR * detSize T ≤ 1 / 32 * |exactDet T| := by
    calc uR * detSize T ≤ uR * (2 ^ 48 * |exactDet T|) := mul_le_mul_of_nonneg_left hK hu.le
      _ = uR * 2 ^ 48 * |exactDet T| := by ring
      _ = 1 / 32 * |exactDet T| := by norm_num [uR]
  have tri := abs_sub_abs_le_abs_sub T.determinant.real (exactDet T)
  have big : 1 / 3 * (1 / 2 ^ 200) ≤ |exactDet T| := by
    have hu' := uR_small
    have : uR * (1 / 2 ^ 210) ≤ 1 / 1000 * (1 / 2 ^ 210) := mul_le_mul_of_nonneg_right hu' (by positivity)
    rw [q210] at η1 this
    generalize 1 / (2 : ℝ) ^ 200 = q at *
    linarith
  have D0 : exactDet T ≠ 0 := by
    intro h0; rw [h0, abs_zero] at big; linarith
  have Dp : 0 < |exactDet T| := abs_pos.mpr D0
  have κ1 : 1 ≤ detSize T / |exactDet T| := (one_le_div Dp).mpr hDK
  have κD : detSize T / |exactDet T| * |exactDet T| = detSize T := div_mul_cancel₀ _ Dp.ne'
  have κu : uR * (detSize T / |exactDet T|) ≤ 1 / 32 := by
    rw [← mul_div_assoc, div_le_iff₀ Dp]; exact uK
  have hd : |T.determinant.real - exactDet T| ≤ 3 * uR * (detSize T / |exactDet T|) * |exactDet T| := by
    rw [mul_assoc, κD]
    have : uR * (1 / 2 ^ 210) ≤ 1 / 100 * (uR * |exactDet T|) := by
      calc uR * (1 / 2 ^ 210) ≤ uR * (1 / 100 * |exactDet T|) := by
            refine mul_le_mul_of_nonneg_left ?_ hu.le
            rw [q210]; generalize 1 / (2 : ℝ) ^ 200 = q at *; linarith
        _ = _ := by ring
    have h2 : uR * |exactDet T| ≤ uR * detSize T := mul_le_mul_of_nonneg_left hDK hu.le
    have h3 : 0 ≤ uR * detSize T := mul_nonneg hu.le ((abs_nonneg _).trans hDK)
    linarith
  have dpos : 0 < |T.determinant.real| := p200.trans_le (he.trans hdeg)
  -- the reciprocal
  have rec_hi : |1 / T.determinant.real| ≤ 2 ^ 200 := by
    rw [abs_div, abs_one, div_le_iff₀ dpos]
    have := mul_le_mul_of_nonneg_left (he.trans hdeg) (two_pow_pos 200).le
    rwa [mul_one_div_cancel (two_pow_pos 200).ne'] at this
  have det_hi : |T.determinant.real| ≤ 2 ^ 402 := by
    have h1 : 3 * uR * (detSize T / |exactDet T|) * |exactDet T| ≤ |exactDet T| := by
      refine mul_le_of_le_one_left Dp.le ?_
      rw [mul_assoc]; linarith
    have h2 : |T.determinant.real| ≤ 2 * detSize T := by linarith
    calc |T.determinant.real| ≤ 2 * detSize T := h2
      _ ≤ 2 * 2 ^ 401 := mul_le_mul_of_nonneg_left hsize (by norm_num)
      _ = 2 ^ 402 := (pow_succ' _ _).symm
  have rec_lo : 1 / 2 ^ 402 ≤ |1 / T.determinant.real| := by
    rw [abs_div, abs_one]
    exact one_div_le_one_div_of_le dpos det_hi
  have hdiv := div_ok 1 T.determinant (by rw [real_one]; exact rec_hi.trans (pow_le_real (by norm_num)))
  rw [real_one] at hdiv
  have hi : |(1 / T.determinant : Double).real - 1 / T.determinant.real| ≤ 1001 / 1000 * uR * |1 / T.determinant.real| := by
    have e1 := ηR_le (n := 402) (by norm_num)
    have e2 : uR * (1 / 2 ^ 402) ≤ uR * |1 / T.determinant.real| := mul_le_mul_of_nonneg_left rec_lo hu.le
    linarith
  have hI := recipE hu D0 κ1 κu hd hi
  have hidet : |(1 / T.determinant : Double).real| ≤ 2 ^ 201 := slack_pow hdiv rec_hi
  -- the entries
  have ent : ∀ x : Double, |x.real| ≤ 2 ^ 200 →
      |(x * (1 / T.determinant)).real - x.real * (1 / exactDet T)| ≤
        6 * (uR * (detSize T / |exactDet T|)) * |x.real * (1 / exactDet T)| + ηR ∧
      |(x * (1 / T.determinant)).real| ≤ 2 ^ 402 := by
    intro x hx
    obtain ⟨h1, h2⟩ := mul_in (by norm_num) (mul_pow_le hx hidet)
    exact ⟨entryE hu κ1 κu hI h1, h2⟩
  have neg_le : ∀ x : Double, |x.real| ≤ 2 ^ 200 → |(-x).real| ≤ 2 ^ 200 := by
    intro x hx; rw [real_neg, abs_neg]; exact hx
  obtain ⟨ra, ra'⟩ := ent T.e te
  obtain ⟨rb, rb'⟩ := ent (-T.b) (neg_le _ tb)
  obtain ⟨rd, rd'⟩ := ent (-T.d) (neg_le _ td)
  obtain ⟨re, re'⟩ := ent T.a ta
  rw [real_neg] at rb rd
  have shift : ∀ x y : Double, ∀ A B : ℝ, |x.real| ≤ 2 ^ 402 → |y.real| ≤ 2 ^ 402 →
      |x.real - A| ≤ 6 * (uR * (detSize T / |exactDet T|)) * |A| + ηR →
      |y.real - B| ≤ 6 * (uR * (detSize T / |exactDet T|)) * |B| + ηR →
      |(-T.c * x - T.f * y).real - (-T.c.real * A - T.f.real * B)| ≤
        9 * (uR * (detSize T / |exactDet T|)) * (|-T.c.real * A| + |T.f.real * B|) +
          4 * ηR * (|-T.c.real| + |T.f.real| + 1) := by
    intro x y A B hx hy hA hB
    obtain ⟨h1, h2⟩ := mul_in (by norm_num) (mul_pow_le (neg_le _ tc) hx)
    obtain ⟨h3, h4⟩ := mul_in (by norm_num) (mul_pow_le tf hy)
    have b : |(-T.c * x).real - (T.f * y).real| ≤ 2 ^ 604 := by
      rw [sub_eq_add_neg]; exact add_pow h2 (by rw [abs_neg]; exact h4)
    have s := sub_ok (-T.c * x) (T.f * y) (b.trans (pow_le_real (by norm_num)))
    rw [real_neg] at h1
    exact shiftE hu uR_small κ1 κu hη hA hB h1 h3 (by linarith)
  have hb0 : (T.determinant == 0) = false := by simpa using d0
  simp only [pydiv, hb0, Bool.false_eq_true, if_false, bind, Except.bind, pure, Except.pure, Except.ok.injEq] at h
  subst h
  exact ⟨D0, κ1, κu, κD, ra, rb, rd, re, shift _ _ _ _ ra' rb' ra rb, shift _ _ _ _ rd' re' rd re⟩

end Planar
