import Verif.Lemmas.FloatError
import Verif.Lemmas.GridTri
/- Error bounds for the triangle test in double precision. -/
namespace Planar
open Spec Polygon

section Abstract
variable {F : Type} [Field F] [LinearOrder F] [IsStrictOrderedRing F]

theorem prodE {x y x' y' X Y ex ey : F} (hx : |x' - x| ≤ ex) (hy : |y' - y| ≤ ey) (bx : |x| ≤ X) (by' : |y| ≤ Y) :
    |x' * y' - x * y| ≤ X * ey + Y * ex + ex * ey := by
  have e : x' * y' - x * y = x * (y' - y) + (x' - x) * y + (x' - x) * (y' - y) := by ring
  have h1 : |x * (y' - y)| ≤ X * ey := by
    rw [abs_mul]; exact mul_le_mul bx hy (abs_nonneg _) ((abs_nonneg _).trans bx)
  have h2 : |(x' - x) * y| ≤ Y * ex := by
    rw [abs_mul, mul_comm]; exact mul_le_mul by' hx (abs_nonneg _) ((abs_nonneg _).trans by')
  have h3 : |(x' - x) * (y' - y)| ≤ ex * ey := by
    rw [abs_mul]; exact mul_le_mul hx hy (abs_nonneg _) ((abs_nonneg _).trans hx)
  rw [e]
  exact (abs_add_le _ _).trans (add_le_add ((abs_add_le _ _).trans (add_le_add h1 h2)) h3)

/-- Rounded product of two computed numbers. -/
theorem mulE {x y x' y' X Y ex ey m u η : F} (hu : 0 ≤ u) (hx : |x' - x| ≤ ex) (hy : |y' - y| ≤ ey) (bx : |x| ≤ X)
    (by' : |y| ≤ Y) (hm : |m - x' * y'| ≤ u * |x' * y'| + η) :
    |m - x * y| ≤ (1 + u) * (X * ey + Y * ex + ex * ey) + u * (X * Y) + η := by
  have h1 := prodE hx hy bx by'
  have h2 : |x * y| ≤ X * Y := by
    rw [abs_mul]; exact mul_le_mul bx by' (abs_nonneg _) ((abs_nonneg _).trans bx)
  have h3 := abs_sub_abs_le_abs_sub (x' * y') (x * y)
  have h4 : u * |x' * y'| ≤ u * (X * Y + (X * ey + Y * ex + ex * ey)) := mul_le_mul_of_nonneg_left (by linarith) hu
  have h5 := abs_sub_le m (x' * y') (x * y)
  linarith

/-- A computed dot product. -/
theorem dotE {x1 y1 x2 y2 x1' y1' x2' y2' m1 m2 s P Q u η : F} (hu : 0 ≤ u) (hu' : u ≤ 1 / 1000) (hη : 1000 * η ≤ u * (P * Q))
    (hη0 : 0 ≤ η) (b1 : |x1| ≤ P) (b2 : |y1| ≤ P) (b3 : |x2| ≤ Q) (b4 : |y2| ≤ Q)
    (e1 : |x1' - x1| ≤ u * P) (e2 : |y1' - y1| ≤ u * P) (e3 : |x2' - x2| ≤ u * Q) (e4 : |y2' - y2| ≤ u * Q)
    (h1 : |m1 - x1' * x2'| ≤ u * |x1' * x2'| + η) (h2 : |m2 - y1' * y2'| ≤ u * |y1' * y2'| + η)
    (h3 : |s - (m1 + m2)| ≤ u * |m1 + m2| + η) :
    |s - (x1 * x2 + y1 * y2)| ≤ 81 / 10 * u * (P * Q) ∧ |x1 * x2 + y1 * y2| ≤ 2 * (P * Q) := by
  have P0 : 0 ≤ P := (abs_nonneg _).trans b1
  have Q0 : 0 ≤ Q := (abs_nonneg _).trans b3
  have W0 : 0 ≤ P * Q := mul_nonneg P0 Q0
  have a1 := mulE hu e1 e3 b1 b3 h1
  have a2 := mulE hu e2 e4 b2 b4 h2
  have c1 : |x1 * x2| ≤ P * Q := by
    rw [abs_mul]; exact mul_le_mul b1 b3 (abs_nonneg _) P0
  have c2 : |y1 * y2| ≤ P * Q := by
    rw [abs_mul]; exact mul_le_mul b2 b4 (abs_nonneg _) P0
  have uW : 0 ≤ u * (P * Q) := mul_nonneg hu W0
  have uuW : u * (u * (P * Q)) ≤ 1 / 1000 * (u * (P * Q)) := mul_le_mul_of_nonneg_right hu' uW
  have uuuW : u * (u * (u * (P * Q))) ≤ 1 / 1000 * (u * (u * (P * Q))) :=
    mul_le_mul_of_nonneg_right hu' (mul_nonneg hu uW)
  have k : (1 + u) * (P * (u * Q) + Q * (u * P) + u * P * (u * Q)) + u * (P * Q) + η ≤ 301 / 100 * (u * (P * Q)) := by
    have : (1 + u) * (P * (u * Q) + Q * (u * P) + u * P * (u * Q)) =
      2 * (u * (P * Q)) + 3 * (u * (u * (P * Q))) + u * (u * (u * (P * Q))) := by ring
    rw [this]; linarith
  have d1 := a1.trans k
  have d2 := a2.trans k
  have c3 := (abs_add_le (x1 * x2) (y1 * y2)).trans (add_le_add c1 c2)
  refine ⟨?_, by linarith⟩
  have f : |m1 + m2 - (x1 * x2 + y1 * y2)| ≤ 602 / 100 * (u * (P * Q)) := by
    have : m1 + m2 - (x1 * x2 + y1 * y2) = (m1 - x1 * x2) + (m2 - y1 * y2) := by ring
    rw [this]
    refine (abs_add_le _ _).trans ?_
    linarith
  have g := abs_sub_abs_le_abs_sub (m1 + m2) (x1 * x2 + y1 * y2)
  have h : u * |m1 + m2| ≤ u * (2 * (P * Q) + 602 / 100 * (u * (P * Q))) := mul_le_mul_of_nonneg_left (by linarith) hu
  have t := abs_sub_le s (m1 + m2) (x1 * x2 + y1 * y2)
  linarith

/-- A computed difference of two products of computed dot products. -/
theorem crossE {X1 X2 X3 X4 x1 x2 x3 x4 q1 q2 n A1 A2 A3 A4 W u η : F} (hu : 0 ≤ u) (hu' : u ≤ 1 / 1000)
    (hη : 1000 * η ≤ u * W) (hη0 : 0 ≤ η) (w1 : A1 * A2 = W) (w2 : A3 * A4 = W)
    (b1 : |X1| ≤ 2 * A1) (b2 : |X2| ≤ 2 * A2) (b3 : |X3| ≤ 2 * A3) (b4 : |X4| ≤ 2 * A4)
    (e1 : |x1 - X1| ≤ 81 / 10 * u * A1) (e2 : |x2 - X2| ≤ 81 / 10 * u * A2) (e3 : |x3 - X3| ≤ 81 / 10 * u * A3)
    (e4 : |x4 - X4| ≤ 81 / 10 * u * A4) (h1 : |q1 - x1 * x2| ≤ u * |x1 * x2| + η) (h2 : |q2 - x3 * x4| ≤ u * |x3 * x4| + η)
    (h3 : |n - (q1 - q2)| ≤ u * |q1 - q2|) :
    |n - (X1 * X2 - X3 * X4)| ≤ 82 * u * W ∧ |X1 * X2 - X3 * X4| ≤ 8 * W := by
  have A1p : 0 ≤ A1 := by have := (abs_nonneg _).trans b1; linarith
  have A2p : 0 ≤ A2 := by have := (abs_nonneg _).trans b2; linarith
  have W0 : 0 ≤ W := w1 ▸ mul_nonneg A1p A2p
  have a1 := mulE hu e1 e2 b1 b2 h1
  have a2 := mulE hu e3 e4 b3 b4 h2
  have uW : 0 ≤ u * W := mul_nonneg hu W0
  have uuW : u * (u * W) ≤ 1 / 1000 * (u * W) := mul_le_mul_of_nonneg_right hu' uW
  have uuuW : u * (u * (u * W)) ≤ 1 / 1000 * (u * (u * W)) := mul_le_mul_of_nonneg_right hu' (mul_nonneg hu uW)
  have k : ∀ A B : F, A * B = W → (1 + u) * (2 * A * (81 / 10 * u * B) + 2 * B * (81 / 10 * u * A) +
      81 / 10 * u * A * (81 / 10 * u * B)) + u * (2 * A * (2 * B)) + η ≤ 366 / 10 * (u * W) := by
    intro A B hAB
    have : (1 + u) * (2 * A * (81 / 10 * u * B) + 2 * B * (81 / 10 * u * A) +
      81 / 10 * u * A * (81 / 10 * u * B)) + u * (2 * A * (2 * B)) =
      324 / 10 * (u * (A * B)) + (324 / 10 + 6561 / 100) * (u * (u * (A * B))) + 6561 / 100 * (u * (u * (u * (A * B)))) +
        4 * (u * (A * B)) := by ring
    rw [this, hAB]; linarith
  have d1 := a1.trans (k A1 A2 w1)
  have d2 := a2.trans (k A3 A4 w2)
  have c1 : |X1 * X2| ≤ 4 * W := by
    rw [abs_mul]
    refine (mul_le_mul b1 b2 (abs_nonneg _) (by linarith)).trans (le_of_eq ?_)
    rw [← w1]; ring
  have c2 : |X3 * X4| ≤ 4 * W := by
    rw [abs_mul]
    refine (mul_le_mul b3 b4 (abs_nonneg _) ((abs_nonneg _).trans b3)).trans (le_of_eq ?_)
    rw [← w2]; ring
  have c3 := (abs_sub (X1 * X2) (X3 * X4)).trans (add_le_add c1 c2)
  refine ⟨?_, by linarith⟩
  have f : |q1 - q2 - (X1 * X2 - X3 * X4)| ≤ 732 / 10 * (u * W) := by
    have : q1 - q2 - (X1 * X2 - X3 * X4) = (q1 - X1 * X2) - (q2 - X3 * X4) := by ring
    rw [this]
    refine (abs_sub _ _).trans ?_
    linarith
  have g := abs_sub_abs_le_abs_sub (q1 - q2) (X1 * X2 - X3 * X4)
  have h : u * |q1 - q2| ≤ u * (8 * W + 732 / 10 * (u * W)) := mul_le_mul_of_nonneg_left (by linarith) hu
  have t := abs_sub_le n (q1 - q2) (X1 * X2 - X3 * X4)
  linarith

/-- A computed quotient through the reciprocal. -/
theorem quotE {n N d Δ inv U ν ρ u η : F} (hu : 0 ≤ u) (hu' : u ≤ 1 / 1000) (hΔ : 0 < Δ) (hd : |d - Δ| ≤ ρ * Δ)
    (hρ : ρ ≤ 1 / 100) (hn : |n - N| ≤ ν * Δ) (hinv : |inv - 1 / d| ≤ 1001 / 1000 * u * (1 / d))
    (hU : |U - n * inv| ≤ u * |n * inv| + η) (hη : η ≤ u * ν) :
    |U - N / Δ| ≤ 102 / 100 * ν + (102 / 100 * ρ + 201 / 100 * u) * |N / Δ| := by
  have hdl : 99 / 100 * Δ ≤ d := by
    have h1 := (abs_le.mp hd).1
    have h2 : ρ * Δ ≤ 1 / 100 * Δ := mul_le_mul_of_nonneg_right hρ hΔ.le
    linarith
  have hd0 : 0 < d := by linarith
  have ν0 : 0 ≤ ν := by
    have := (abs_nonneg _).trans hn
    exact nonneg_of_mul_nonneg_left this hΔ
  have ρ0 : 0 ≤ ρ := by
    have := (abs_nonneg _).trans hd
    exact nonneg_of_mul_nonneg_left this hΔ
  have hq : Δ / d ≤ 10102 / 10000 := by
    rw [div_le_iff₀ hd0]; linarith
  have X0 := abs_nonneg (N / Δ)
  have E1 : |n / d - N / Δ| ≤ 10102 / 10000 * (ν + ρ * |N / Δ|) := by
    have e : n / d - N / Δ = (n - N) / d + N / Δ * ((Δ - d) / d) := by
      field_simp; ring
    have h1 : |(n - N) / d| ≤ ν * (10102 / 10000) := by
      rw [abs_div, abs_of_pos hd0]
      calc |n - N| / d ≤ ν * Δ / d := by gcongr
        _ = ν * (Δ / d) := by ring
        _ ≤ _ := mul_le_mul_of_nonneg_left hq ν0
    have h2 : |N / Δ * ((Δ - d) / d)| ≤ |N / Δ| * (ρ * (10102 / 10000)) := by
      rw [abs_mul]
      refine mul_le_mul_of_nonneg_left ?_ X0
      rw [abs_div, abs_of_pos hd0, abs_sub_comm]
      calc |d - Δ| / d ≤ ρ * Δ / d := by gcongr
        _ = ρ * (Δ / d) := by ring
        _ ≤ _ := mul_le_mul_of_nonneg_left hq ρ0
    rw [e]
    refine (abs_add_le _ _).trans ?_
    linarith
  have E2 : |n * inv - n / d| ≤ 1001 / 1000 * u * |n / d| := by
    have e : n * inv - n / d = n * (inv - 1 / d) := by ring
    rw [e, abs_mul]
    calc |n| * |inv - 1 / d| ≤ |n| * (1001 / 1000 * u * (1 / d)) := mul_le_mul_of_nonneg_left hinv (abs_nonneg _)
      _ = 1001 / 1000 * u * |n / d| := by rw [abs_div, abs_of_pos hd0]; ring
  have T1 := abs_sub_abs_le_abs_sub (n / d) (N / Δ)
  have T2 := abs_sub_abs_le_abs_sub (n * inv) (n / d)
  have T3 := abs_sub_le U (n * inv) (n / d)
  have T4 := abs_sub_le U (n / d) (N / Δ)
  generalize |N / Δ| = X at *
  have k0 := abs_nonneg (n / d)
  generalize |n / d| = Y at *
  generalize |n * inv| = Z at *
  have m1 : u * Z ≤ u * (Y + 1001 / 1000 * u * Y) := mul_le_mul_of_nonneg_left (by linarith) hu
  have m2 : u * (u * Y) ≤ 1 / 1000 * (u * Y) := mul_le_mul_of_nonneg_right hu' (mul_nonneg hu k0)
  have m3 : u * Y ≤ u * (X + 10102 / 10000 * (ν + ρ * X)) := mul_le_mul_of_nonneg_left (by linarith) hu
  have m4 : u * ν ≤ 1 / 1000 * ν := mul_le_mul_of_nonneg_right hu' ν0
  have m5 : u * (ρ * X) ≤ 1 / 1000 * (ρ * X) := mul_le_mul_of_nonneg_right hu' (mul_nonneg ρ0 X0)
  have m6 := mul_nonneg ρ0 X0
  have m7 := mul_nonneg hu X0
  linarith

/-- The sign of a computed coordinate. -/
theorem signE {U X ν ρ u : F} (hu' : u ≤ 1 / 1000) (hρ : ρ ≤ 1 / 100) (hX : 12 * ν ≤ |X|)
    (h : |U - X| ≤ 102 / 100 * ν + (102 / 100 * ρ + 201 / 100 * u) * |X|) (h0 : X ≠ 0) : (0 < U ↔ 0 < X) ∧ U ≠ 0 := by
  have X0 := abs_pos.mpr h0
  have h1 : (102 / 100 * ρ + 201 / 100 * u) * |X| ≤ (2 / 100) * |X| := mul_le_mul_of_nonneg_right (by linarith) X0.le
  have h2 : |U - X| ≤ 1 / 2 * |X| := by linarith
  obtain ⟨a, b⟩ := abs_le.mp h2
  rcases lt_or_gt_of_ne h0 with hn | hp
  · rw [abs_of_neg hn] at a b
    exact ⟨⟨fun h => by linarith, fun h => by linarith⟩, by intro h; rw [h] at a b; linarith⟩
  · rw [abs_of_pos hp] at a b
    exact ⟨⟨fun h => by linarith, fun h => by linarith⟩, by intro h; rw [h] at a b; linarith⟩

/-- The sum of the computed coordinates. -/
theorem sumE {U V X Y s ν ρ u η : F} (hu : 0 ≤ u) (hu' : u ≤ 1 / 1000) (hρ : ρ ≤ 1 / 100) (hρν : ρ ≤ ν) (huν : u ≤ ν)
    (hX : 0 < X) (hY : 0 < Y) (hU : |U - X| ≤ 102 / 100 * ν + (102 / 100 * ρ + 201 / 100 * u) * |X|)
    (hV : |V - Y| ≤ 102 / 100 * ν + (102 / 100 * ρ + 201 / 100 * u) * |Y|) (hs : |s - (U + V)| ≤ u * |U + V| + η)
    (hη : η ≤ u * ν) (hgap : 12 * ν ≤ |X + Y - 1|) (hne : X + Y ≠ 1) : (s < 1 ↔ X + Y < 1) ∧ s ≠ 1 := by
  rw [abs_of_pos hX] at hU
  rw [abs_of_pos hY] at hV
  have ν0 : 0 ≤ ν := hu.trans huν
  have hW : |U + V - (X + Y)| ≤ 204 / 100 * ν + (102 / 100 * ρ + 201 / 100 * u) * (X + Y) := by
    have e : U + V - (X + Y) = (U - X) + (V - Y) := by ring
    rw [e]
    refine (abs_add_le _ _).trans ?_
    linarith
  set Z := X + Y with hZ
  have Z0 : 0 < Z := add_pos hX hY
  have T1 := abs_sub_abs_le_abs_sub (U + V) Z
  rw [abs_of_pos Z0] at T1
  have c0 : (102 / 100 * ρ + 201 / 100 * u) * Z ≤ 2 / 100 * Z := mul_le_mul_of_nonneg_right (by linarith) Z0.le
  have m1 : u * |U + V| ≤ u * (204 / 100 * ν + 102 / 100 * Z) := mul_le_mul_of_nonneg_left (by linarith) hu
  have m2 : u * ν ≤ 1 / 1000 * ν := mul_le_mul_of_nonneg_right hu' ν0
  have T2 := abs_sub_le s (U + V) Z
  have m3 : 0 ≤ u * Z := mul_nonneg hu Z0.le
  have key : |s - Z| ≤ 205 / 100 * ν + (102 / 100 * ρ + 304 / 100 * u) * Z := by linarith
  have fin : |s - Z| ≤ 99 / 100 * |Z - 1| := by
    rcases le_or_gt Z 2 with h2 | h2
    · have : (102 / 100 * ρ + 304 / 100 * u) * Z ≤ (406 / 100 * ν) * 2 :=
        mul_le_mul (by linarith) h2 Z0.le (by linarith)
      linarith
    · have c : (102 / 100 * ρ + 304 / 100 * u) * Z ≤ 2 / 100 * Z := mul_le_mul_of_nonneg_right (by linarith) Z0.le
      rw [abs_of_pos (by linarith : 0 < Z - 1)] at hgap ⊢
      linarith
  obtain ⟨a, b⟩ := abs_le.mp fin
  rcases lt_or_gt_of_ne hne with hn | hp
  · rw [abs_of_neg (by linarith)] at a b
    exact ⟨⟨fun _ => hn, fun _ => by linarith⟩, by intro h; rw [h] at a b; linarith⟩
  · rw [abs_of_pos (by linarith)] at a b
    exact ⟨⟨fun h => by linarith, fun h => by linarith⟩, by intro h; rw [h] at a b; linarith⟩

end Abstract

/-- The relative and the absolute error of one rounding. -/
def uQ : ℚ := 1 / 2 ^ 53
def ηQ : ℚ := 1 / 2 ^ 1075

theorem uQ_pos : 0 < uQ := by unfold uQ; positivity
theorem ηQ_pos : 0 < ηQ := by unfold ηQ; positivity
theorem uQ_small : uQ ≤ 1 / 1000 := by norm_num [uQ]

theorem qpow_le {m n : ℕ} (h : m ≤ n) : (2 : ℚ) ^ m ≤ 2 ^ n := pow_le_pow_right₀ (by norm_num) h

theorem qinv_le {m n : ℕ} (h : m ≤ n) : 1 / (2 : ℚ) ^ n ≤ 1 / 2 ^ m :=
  one_div_le_one_div_of_le (by positivity) (qpow_le h)

theorem ηQ_small {W : ℚ} (h : 1 / 2 ^ 1000 ≤ W) : 1000 * ηQ ≤ uQ * W := by
  have e : ηQ = 1 / 2 ^ 22 * (1 / 2 ^ 53 * (1 / 2 ^ 1000)) := by
    have key : ∀ i j k l : ℕ, l = i + (j + k) → 1 / (2 : ℚ) ^ l = 1 / 2 ^ i * (1 / 2 ^ j * (1 / 2 ^ k)) := by
      intro i j k l h
      rw [h, pow_add, pow_add, one_div, one_div, one_div, one_div, mul_inv, mul_inv]
    exact key 22 53 1000 1075 (by norm_num)
  have h1 : uQ * (1 / 2 ^ 1000) ≤ uQ * W := mul_le_mul_of_nonneg_left h uQ_pos.le
  have h2 : 0 ≤ uQ * (1 / 2 ^ 1000) := mul_nonneg uQ_pos.le (by positivity)
  rw [e]
  refine le_trans ?_ h1
  unfold uQ at h2 ⊢
  generalize 1 / (2 : ℚ) ^ 53 * (1 / 2 ^ 1000) = g at *
  have : (1 : ℚ) / 2 ^ 22 ≤ 1 / 1000 := by norm_num
  calc 1000 * (1 / 2 ^ 22 * g) = (1000 * (1 / 2 ^ 22)) * g := by ring
    _ ≤ 1 * g := mul_le_mul_of_nonneg_right (by linarith) h2
    _ = g := one_mul g

theorem rndE {x : ℚ} (h : |x| ≤ 2 ^ 1023) : |double.rnd x - x| ≤ uQ * |x| + ηQ := double_rnd_err h

theorem subE (a b : Double) {S : ℚ} (h : |a.val - b.val| ≤ S) (hS : S ≤ 2 ^ 200) :
    |(a - b).val - (a.val - b.val)| ≤ uQ * S := by
  have h' : |a.val - b.val| ≤ 2 ^ 1023 := (h.trans hS).trans (qpow_le (by norm_num))
  exact (double_sub_err a b h').trans (mul_le_mul_of_nonneg_left h uQ_pos.le)

/-- The dot product of two vectors of doubles that are near exact ones. -/
theorem dotD {v w : Vec2 Double} {x1 y1 x2 y2 P Q : ℚ} (b1 : |x1| ≤ P) (b2 : |y1| ≤ P) (b3 : |x2| ≤ Q) (b4 : |y2| ≤ Q)
    (e1 : |v.x.val - x1| ≤ uQ * P) (e2 : |v.y.val - y1| ≤ uQ * P) (e3 : |w.x.val - x2| ≤ uQ * Q)
    (e4 : |w.y.val - y2| ≤ uQ * Q) (hP : P ≤ 2 ^ 200) (hQ : Q ≤ 2 ^ 200) (hPQ : 1 / 2 ^ 400 ≤ P * Q) :
    |(v.x * w.x + v.y * w.y).val - (x1 * x2 + y1 * y2)| ≤ 81 / 10 * uQ * (P * Q) ∧ |x1 * x2 + y1 * y2| ≤ 2 * (P * Q) := by
  have hu := uQ_pos
  have hu' := uQ_small
  have P0 : 0 ≤ P := (abs_nonneg _).trans b1
  have Q0 : 0 ≤ Q := (abs_nonneg _).trans b3
  have hη : 1000 * ηQ ≤ uQ * (P * Q) := ηQ_small ((qinv_le (by norm_num)).trans hPQ)
  have big : ∀ x x' B : ℚ, 0 ≤ B → |x| ≤ B → |x' - x| ≤ uQ * B → |x'| ≤ 2 * B := by
    intro x x' B hB h1 h2
    have := abs_sub_abs_le_abs_sub x' x
    have h3 : uQ * B ≤ 1 / 1000 * B := mul_le_mul_of_nonneg_right hu' hB
    linarith
  have WB : P * Q ≤ 2 ^ 400 := by
    calc P * Q ≤ 2 ^ 200 * 2 ^ 200 := mul_le_mul hP hQ Q0 (by positivity)
      _ = 2 ^ 400 := by rw [← pow_add]
  have pr : ∀ x x' y y' : ℚ, |x| ≤ P → |x' - x| ≤ uQ * P → |y| ≤ Q → |y' - y| ≤ uQ * Q → |x' * y'| ≤ 4 * (P * Q) := by
    intro x x' y y' h1 h2 h3 h4
    rw [abs_mul]
    calc |x'| * |y'| ≤ 2 * P * (2 * Q) := mul_le_mul (big _ _ _ P0 h1 h2) (big _ _ _ Q0 h3 h4) (abs_nonneg _) (by linarith)
      _ = 4 * (P * Q) := by ring
  have c4 : 4 * (P * Q) ≤ 2 ^ 1023 := by
    calc 4 * (P * Q) ≤ 4 * 2 ^ 400 := mul_le_mul_of_nonneg_left WB (by norm_num)
      _ = 2 ^ 402 := by rw [pow_add (2 : ℚ) 400 2]; ring
      _ ≤ 2 ^ 1023 := qpow_le (by norm_num)
  have q1 := pr _ _ _ _ b1 e1 b3 e3
  have q2 := pr _ _ _ _ b2 e2 b4 e4
  have m1 : |(v.x * w.x).val - v.x.val * w.x.val| ≤ uQ * |v.x.val * w.x.val| + ηQ := by
    rw [Fl.mul_val]; exact rndE (q1.trans c4)
  have m2 : |(v.y * w.y).val - v.y.val * w.y.val| ≤ uQ * |v.y.val * w.y.val| + ηQ := by
    rw [Fl.mul_val]; exact rndE (q2.trans c4)
  have W0 : 0 ≤ P * Q := mul_nonneg P0 Q0
  have sm : ∀ m x : ℚ, |x| ≤ 4 * (P * Q) → |m - x| ≤ uQ * |x| + ηQ → |m| ≤ 5 * (P * Q) := by
    intro m x h1 h2
    have h3 := abs_sub_abs_le_abs_sub m x
    have h4 : uQ * |x| ≤ 1 / 1000 * (4 * (P * Q)) := mul_le_mul hu' h1 (abs_nonneg _) (by norm_num)
    have h5 : uQ * (P * Q) ≤ 1 / 1000 * (P * Q) := mul_le_mul_of_nonneg_right hu' W0
    linarith
  have s3 : |(v.x * w.x + v.y * w.y).val - ((v.x * w.x).val + (v.y * w.y).val)| ≤
      uQ * |(v.x * w.x).val + (v.y * w.y).val| + ηQ := by
    rw [Fl.add_val]
    refine rndE ?_
    refine (abs_add_le _ _).trans ((add_le_add (sm _ _ q1 m1) (sm _ _ q2 m2)).trans ?_)
    calc 5 * (P * Q) + 5 * (P * Q) = 10 * (P * Q) := by ring
      _ ≤ 10 * 2 ^ 400 := mul_le_mul_of_nonneg_left WB (by norm_num)
      _ ≤ 2 ^ 4 * 2 ^ 400 := mul_le_mul_of_nonneg_right (by norm_num) (by positivity)
      _ = 2 ^ 404 := by rw [← pow_add]
      _ ≤ 2 ^ 1023 := qpow_le (by norm_num)
  exact dotE hu.le hu' hη ηQ_pos.le b1 b2 b3 b4 e1 e2 e3 e4 m1 m2 s3

/-- The difference of two products of computed dot products. -/
theorem crossD {x1 x2 x3 x4 : Double} {X1 X2 X3 X4 A1 A2 A3 A4 W : ℚ} (w1 : A1 * A2 = W) (w2 : A3 * A4 = W)
    (b1 : |X1| ≤ 2 * A1) (b2 : |X2| ≤ 2 * A2) (b3 : |X3| ≤ 2 * A3) (b4 : |X4| ≤ 2 * A4)
    (e1 : |x1.val - X1| ≤ 81 / 10 * uQ * A1) (e2 : |x2.val - X2| ≤ 81 / 10 * uQ * A2)
    (e3 : |x3.val - X3| ≤ 81 / 10 * uQ * A3) (e4 : |x4.val - X4| ≤ 81 / 10 * uQ * A4)
    (hW : 1 / 2 ^ 800 ≤ W) (hW' : W ≤ 2 ^ 800) :
    |(x1 * x2 - x3 * x4).val - (X1 * X2 - X3 * X4)| ≤ 82 * uQ * W ∧ |X1 * X2 - X3 * X4| ≤ 8 * W := by
  have hu := uQ_pos
  have hu' := uQ_small
  have W0 : 0 ≤ W := le_trans (by positivity) hW
  have hη : 1000 * ηQ ≤ uQ * W := ηQ_small ((qinv_le (by norm_num)).trans hW)
  have big : ∀ x X A : ℚ, 0 ≤ A → |X| ≤ 2 * A → |x - X| ≤ 81 / 10 * uQ * A → |x| ≤ 3 * A := by
    intro x X B hB h1 h2
    have := abs_sub_abs_le_abs_sub x X
    have h3 : 81 / 10 * uQ * B ≤ 81 / 10 * (1 / 1000) * B :=
      mul_le_mul_of_nonneg_right (mul_le_mul_of_nonneg_left hu' (by norm_num)) hB
    linarith
  have nn : ∀ X A : ℚ, |X| ≤ 2 * A → 0 ≤ A := fun X A h => by have := (abs_nonneg X).trans h; linarith
  have pr : ∀ x X y Y A B : ℚ, A * B = W → |X| ≤ 2 * A → |Y| ≤ 2 * B → |x - X| ≤ 81 / 10 * uQ * A → |y - Y| ≤ 81 / 10 * uQ * B →
      |x * y| ≤ 9 * W := by
    intro x X y Y A B hAB h1 h2 h3 h4
    rw [abs_mul]
    calc |x| * |y| ≤ 3 * A * (3 * B) :=
          mul_le_mul (big _ _ _ (nn _ _ h1) h1 h3) (big _ _ _ (nn _ _ h2) h2 h4) (abs_nonneg _)
            (by have := nn _ _ h1; linarith)
      _ = 9 * (A * B) := by ring
      _ = 9 * W := by rw [hAB]
  have fits : ∀ c : ℚ, 0 ≤ c → c ≤ 2 ^ 10 → c * W ≤ 2 ^ 1023 := by
    intro c hc hc'
    calc c * W ≤ 2 ^ 10 * 2 ^ 800 := mul_le_mul hc' hW' W0 (by positivity)
      _ = 2 ^ 810 := by rw [← pow_add]
      _ ≤ 2 ^ 1023 := qpow_le (by norm_num)
  have q1 := pr _ _ _ _ _ _ w1 b1 b2 e1 e2
  have q2 := pr _ _ _ _ _ _ w2 b3 b4 e3 e4
  have m1 : |(x1 * x2).val - x1.val * x2.val| ≤ uQ * |x1.val * x2.val| + ηQ := by
    rw [Fl.mul_val]; exact rndE (q1.trans (fits 9 (by norm_num) (by norm_num)))
  have m2 : |(x3 * x4).val - x3.val * x4.val| ≤ uQ * |x3.val * x4.val| + ηQ := by
    rw [Fl.mul_val]; exact rndE (q2.trans (fits 9 (by norm_num) (by norm_num)))
  have sm : ∀ m x : ℚ, |x| ≤ 9 * W → |m - x| ≤ uQ * |x| + ηQ → |m| ≤ 10 * W := by
    intro m x h1 h2
    have h3 := abs_sub_abs_le_abs_sub m x
    have h4 : uQ * |x| ≤ 1 / 1000 * (9 * W) := mul_le_mul hu' h1 (abs_nonneg _) (by norm_num)
    have h5 : uQ * W ≤ 1 / 1000 * W := mul_le_mul_of_nonneg_right hu' W0
    clear hW hW'
    linarith
  have s3 : |(x1 * x2 - x3 * x4).val - ((x1 * x2).val - (x3 * x4).val)| ≤ uQ * |(x1 * x2).val - (x3 * x4).val| := by
    refine double_sub_err _ _ ?_
    refine (abs_sub _ _).trans ((add_le_add (sm _ _ q1 m1) (sm _ _ q2 m2)).trans ?_)
    calc 10 * W + 10 * W = 20 * W := by ring
      _ ≤ 2 ^ 1023 := fits 20 (by norm_num) (by norm_num)
  exact crossE hu.le hu' hη ηQ_pos.le w1 w2 b1 b2 b3 b4 e1 e2 e3 e4 m1 m2 s3

/-- The comparisons of the triangle test, from the computed numerators and the computed denominator. -/
theorem closureD {n m d : Double} {N M Δ S R : ℚ} (hS : 1 / 2 ^ 200 ≤ S) (hSR : S ≤ R) (hR : R ≤ 2 ^ 200)
    (hn : |n.val - N| ≤ 82 * uQ * (S * S * (S * R))) (hm : |m.val - M| ≤ 82 * uQ * (S * S * (S * R)))
    (hd : |d.val - Δ| ≤ 82 * uQ * (S * S * (S * S))) (bN : |N| ≤ 8 * (S * S * (S * R))) (bM : |M| ≤ 8 * (S * S * (S * R)))
    (bΔ : |Δ| ≤ 8 * (S * S * (S * S))) (hΔ0 : 0 ≤ Δ) (hthin : S * S * (S * S) ≤ 2 ^ 39 * Δ)
    (gN : S * S * (S * R) ≤ 2 ^ 43 * |N|) (gM : S * S * (S * R) ≤ 2 ^ 43 * |M|)
    (gZ : S * S * (S * R) ≤ 2 ^ 43 * |N + M - Δ|) :
    0 < d ∧ (0 < n * (1 / d) ↔ 0 < N) ∧ n * (1 / d) ≠ 0 ∧ (0 < m * (1 / d) ↔ 0 < M) ∧ m * (1 / d) ≠ 0 ∧
    (0 < N → 0 < M → (n * (1 / d) + m * (1 / d) < 1 ↔ N + M < Δ) ∧ n * (1 / d) + m * (1 / d) ≠ 1) := by
  have hu := uQ_pos
  have hu' := uQ_small
  have hη := ηQ_pos
  have S0 : 0 < S := lt_of_lt_of_le (by positivity) hS
  have R0 : 0 < R := S0.trans_le hSR
  have hSb : S ≤ 2 ^ 200 := hSR.trans hR
  set W := S * S * (S * R) with hW
  set T := S * S * (S * S) with hT
  have W0 : 0 < W := by positivity
  have T0 : 0 < T := by positivity
  have hTW : T ≤ W := mul_le_mul_of_nonneg_left (mul_le_mul_of_nonneg_left hSR S0.le) (by positivity)
  have Tlow : 1 / 2 ^ 800 ≤ T := by
    have h1 : (1 : ℚ) / 2 ^ 200 * (1 / 2 ^ 200) ≤ S * S := mul_le_mul hS hS (by positivity) S0.le
    have h2 : (1 : ℚ) / 2 ^ 200 * (1 / 2 ^ 200) * (1 / 2 ^ 200 * (1 / 2 ^ 200)) ≤ S * S * (S * S) :=
      mul_le_mul h1 h1 (by positivity) (by positivity)
    have e : (1 : ℚ) / 2 ^ 800 = 1 / 2 ^ 200 * (1 / 2 ^ 200) * (1 / 2 ^ 200 * (1 / 2 ^ 200)) := by
      rw [show (800 : ℕ) = 200 + 200 + (200 + 200) by norm_num, pow_add, pow_add]; ring
    rw [e]; exact h2
  have Tup : T ≤ 2 ^ 800 := by
    have h1 : S * S ≤ 2 ^ 200 * 2 ^ 200 := mul_le_mul hSb hSb S0.le (by positivity)
    have h2 : S * S * (S * S) ≤ 2 ^ 200 * 2 ^ 200 * (2 ^ 200 * 2 ^ 200) :=
      mul_le_mul h1 h1 (by positivity) (by positivity)
    refine h2.trans (le_of_eq ?_)
    rw [show (800 : ℕ) = 200 + 200 + (200 + 200) by norm_num, pow_add, pow_add]
  have Δ0 : 0 < Δ := by
    rcases eq_or_lt_of_le hΔ0 with h | h
    · rw [← h, mul_zero] at hthin; linarith
    · exact h
  rw [abs_of_pos Δ0] at bΔ
  have hWR : W ≤ 2 ^ 400 * T := by
    have h1 : R ≤ 2 ^ 400 * S := by
      calc R ≤ 2 ^ 200 := hR
        _ = 2 ^ 400 * (1 / 2 ^ 200) := by
          rw [show (400 : ℕ) = 200 + 200 by norm_num, pow_add]
          field_simp
        _ ≤ 2 ^ 400 * S := mul_le_mul_of_nonneg_left hS (by positivity)
    rw [hW, hT]
    calc S * S * (S * R) ≤ S * S * (S * (2 ^ 400 * S)) :=
          mul_le_mul_of_nonneg_left (mul_le_mul_of_nonneg_left h1 S0.le) (by positivity)
      _ = 2 ^ 400 * (S * S * (S * S)) := by ring
  -- relative errors
  set ν := 82 * uQ * W / Δ with hν
  set ρ := 82 * uQ * T / Δ with hρ
  have eν : ν * Δ = 82 * uQ * W := by rw [hν]; field_simp
  have eρ : ρ * Δ = 82 * uQ * T := by rw [hρ]; field_simp
  have uv : uQ * 2 ^ 53 = 1 := by norm_num [uQ]
  have ρs : ρ ≤ 1 / 100 := by
    rw [hρ, div_le_iff₀ Δ0]
    have : 82 * uQ * T ≤ 82 * uQ * (2 ^ 39 * Δ) := mul_le_mul_of_nonneg_left hthin (by positivity)
    refine this.trans ?_
    have e : 82 * uQ * (2 ^ 39 * Δ) = (82 * (uQ * 2 ^ 39)) * Δ := by ring
    rw [e]
    refine mul_le_mul_of_nonneg_right ?_ Δ0.le
    norm_num [uQ]
  have ρν : ρ ≤ ν := by
    rw [hρ, hν]
    gcongr
  have uν : uQ ≤ ν := by
    rw [hν, le_div_iff₀ Δ0]
    have h1 : uQ * Δ ≤ uQ * (8 * W) := mul_le_mul_of_nonneg_left (by linarith) hu.le
    have h2 : 0 < uQ * W := mul_pos hu W0
    linarith
  have ν0 : 0 < ν := hu.trans_le uν
  have ην : ηQ ≤ uQ * ν := by
    have h1 := ηQ_small (W := ν) (le_trans (by unfold uQ; exact qinv_le (by norm_num)) uν)
    linarith
  have hd' : |d.val - Δ| ≤ ρ * Δ := by rw [eρ]; exact hd
  have hn' : |n.val - N| ≤ ν * Δ := by rw [eν]; exact hn
  have hm' : |m.val - M| ≤ ν * Δ := by rw [eν]; exact hm
  have ρΔ : ρ * Δ ≤ 1 / 100 * Δ := mul_le_mul_of_nonneg_right ρs Δ0.le
  have dlow : 99 / 100 * Δ ≤ d.val := by
    have := (abs_le.mp hd').1
    linarith
  have dup : d.val ≤ 101 / 100 * Δ := by
    have := (abs_le.mp hd').2
    linarith
  have d0 : 0 < d.val := by linarith
  -- the reciprocal
  have Δlow : 1 / 2 ^ 839 ≤ Δ := by
    have h1 : 1 / 2 ^ 800 ≤ 2 ^ 39 * Δ := Tlow.trans hthin
    have e : (1 : ℚ) / 2 ^ 800 = 2 ^ 39 * (1 / 2 ^ 839) := by
      rw [show (839 : ℕ) = 39 + 800 by norm_num, pow_add, one_div, one_div, mul_inv, ← mul_assoc,
        mul_inv_cancel₀ (by positivity), one_mul]
    rw [e] at h1
    exact le_of_mul_le_mul_left h1 (by positivity)
  have invlow : 1 / 2 ^ 1000 ≤ 1 / d.val := by
    refine one_div_le_one_div_of_le d0 ?_
    calc d.val ≤ 101 / 100 * Δ := dup
      _ ≤ 2 * (8 * T) := mul_le_mul (by norm_num) bΔ Δ0.le (by norm_num)
      _ = 2 ^ 4 * T := by ring
      _ ≤ 2 ^ 4 * 2 ^ 800 := mul_le_mul_of_nonneg_left Tup (by positivity)
      _ = 2 ^ 804 := by rw [← pow_add]
      _ ≤ 2 ^ 1000 := qpow_le (by norm_num)
  have dinv : 1 / d.val ≤ 102 / 100 * (1 / Δ) := by
    rw [div_le_iff₀ d0]
    have : 102 / 100 * (1 / Δ) * (99 / 100 * Δ) ≤ 102 / 100 * (1 / Δ) * d.val :=
      mul_le_mul_of_nonneg_left dlow (by positivity)
    have e : 102 / 100 * (1 / Δ) * (99 / 100 * Δ) = 102 / 100 * (99 / 100) := by field_simp
    rw [e] at this
    clear Tlow Tup invlow Δlow hS hR hSb hWR
    linarith
  have invup : 1 / d.val ≤ 2 ^ 1000 := by
    refine dinv.trans ?_
    have : 1 / Δ ≤ 2 ^ 839 := by
      rw [div_le_iff₀ Δ0]
      have h1 : (2 : ℚ) ^ 839 * (1 / 2 ^ 839) ≤ 2 ^ 839 * Δ := mul_le_mul_of_nonneg_left Δlow (by positivity)
      rw [mul_one_div_cancel (by positivity)] at h1
      exact h1
    calc 102 / 100 * (1 / Δ) ≤ 2 * 2 ^ 839 := mul_le_mul (by norm_num) this (by positivity) (by norm_num)
      _ = 2 ^ 840 := (pow_succ' 2 839).symm
      _ ≤ 2 ^ 1000 := qpow_le (by norm_num)
  have one : (1 : Double).val = 1 := rfl
  have hinv : |(1 / d : Double).val - 1 / d.val| ≤ 1001 / 1000 * uQ * (1 / d.val) := by
    rw [Fl.div_val, one]
    have h1 := rndE (x := 1 / d.val) (by
      rw [abs_of_pos (by positivity)]
      exact invup.trans (qpow_le (by norm_num)))
    rw [abs_of_pos (by positivity : (0 : ℚ) < 1 / d.val)] at h1
    have h2 := ηQ_small invlow
    generalize 1 / d.val = z at *
    clear Tlow Tup invlow invup Δlow hS hR hSb hWR
    linarith
  have invb : |(1 / d : Double).val| ≤ 2 * (1 / Δ) := by
    have h1 := abs_sub_abs_le_abs_sub (1 / d : Double).val (1 / d.val)
    rw [abs_of_pos (by positivity : (0 : ℚ) < 1 / d.val)] at h1
    have hz : 0 < 1 / d.val := by positivity
    generalize 1 / d.val = z at *
    have h2 : 1001 / 1000 * uQ * z ≤ 1001 / 1000 * (1 / 1000) * z :=
      mul_le_mul_of_nonneg_right (mul_le_mul_of_nonneg_left hu' (by norm_num)) hz.le
    have : 0 < 1 / Δ := by positivity
    generalize 1 / Δ = y at *
    clear Tlow Tup invlow invup Δlow hS hR hSb hWR
    linarith
  -- the coordinates
  have coord : ∀ (k : Double) (K : ℚ), |k.val - K| ≤ ν * Δ → |K| ≤ 8 * W →
      |(k * (1 / d)).val - K / Δ| ≤ 102 / 100 * ν + (102 / 100 * ρ + 201 / 100 * uQ) * |K / Δ| ∧
      |(k * (1 / d)).val| ≤ 2 ^ 500 := by
    intro k K hk bK
    have kb : |k.val| ≤ 9 * W := by
      have h1 := abs_sub_abs_le_abs_sub k.val K
      rw [eν] at hk
      have h2 : 82 * uQ * W ≤ 82 * (1 / 1000) * W :=
        mul_le_mul_of_nonneg_right (mul_le_mul_of_nonneg_left hu' (by norm_num)) W0.le
      clear Tlow Tup invlow invup Δlow hS hR hSb hWR
      linarith
    have pb : |k.val * (1 / d : Double).val| ≤ 2 ^ 450 := by
      rw [abs_mul]
      calc |k.val| * |(1 / d : Double).val| ≤ 9 * W * (2 * (1 / Δ)) := mul_le_mul kb invb (abs_nonneg _) (by positivity)
        _ = 18 * (W / Δ) := by ring
        _ ≤ 18 * (2 ^ 400 * 2 ^ 39) := by
          refine mul_le_mul_of_nonneg_left ?_ (by norm_num)
          rw [div_le_iff₀ Δ0]
          calc W ≤ 2 ^ 400 * T := hWR
            _ ≤ 2 ^ 400 * (2 ^ 39 * Δ) := mul_le_mul_of_nonneg_left hthin (by positivity)
            _ = _ := by ring
        _ ≤ 2 ^ 5 * (2 ^ 400 * 2 ^ 39) := mul_le_mul_of_nonneg_right (by norm_num) (by positivity)
        _ = 2 ^ 444 := by rw [← pow_add, ← pow_add]
        _ ≤ 2 ^ 450 := qpow_le (by norm_num)
    have hU : |(k * (1 / d)).val - k.val * (1 / d : Double).val| ≤ uQ * |k.val * (1 / d : Double).val| + ηQ := by
      rw [Fl.mul_val]; exact rndE (pb.trans (qpow_le (by norm_num)))
    refine ⟨quotE hu.le hu' Δ0 hd' ρs hk hinv hU ην, ?_⟩
    have h1 := abs_sub_abs_le_abs_sub (k * (1 / d)).val (k.val * (1 / d : Double).val)
    have h2 : ηQ ≤ 1 := by
      unfold ηQ; rw [div_le_one (by positivity)]; exact one_le_pow₀ (by norm_num)
    have h3 : uQ * |k.val * (1 / d : Double).val| ≤ 1 * |k.val * (1 / d : Double).val| :=
      mul_le_mul_of_nonneg_right (by linarith) (abs_nonneg _)
    have h4 : |(k * (1 / d)).val| ≤ 2 * 2 ^ 450 + 1 := by
      have key : ∀ z w B : ℚ, z - w ≤ 1 * w + 1 → w ≤ B → z ≤ 2 * B + 1 := fun z w B h1 h2 => by linarith
      exact key _ _ _ (h1.trans (hU.trans (add_le_add h3 h2))) pb
    refine h4.trans ?_
    have h5 : (1 : ℚ) ≤ 2 ^ 450 := one_le_pow₀ (by norm_num)
    calc (2 : ℚ) * 2 ^ 450 + 1 ≤ 2 ^ 2 * 2 ^ 450 := by
          have key : ∀ B : ℚ, 1 ≤ B → 2 * B + 1 ≤ 2 ^ 2 * B := fun B h => by linarith
          exact key _ h5
      _ = 2 ^ 452 := by rw [← pow_add]
      _ ≤ 2 ^ 500 := qpow_le (by norm_num)
  obtain ⟨cU, bU⟩ := coord n N hn' bN
  obtain ⟨cV, bV⟩ := coord m M hm' bM
  -- margins
  have marg : ∀ K : ℚ, W ≤ 2 ^ 43 * |K| → 12 * ν ≤ |K / Δ| := by
    intro K hK
    rw [abs_div, abs_of_pos Δ0, le_div_iff₀ Δ0, mul_assoc, eν]
    have : uQ * W ≤ uQ * (2 ^ 43 * |K|) := mul_le_mul_of_nonneg_left hK hu.le
    have e : uQ * (2 ^ 43 * |K|) = (uQ * 2 ^ 43) * |K| := by ring
    have e2 : uQ * 2 ^ 43 = 1 / 1024 := by norm_num [uQ]
    rw [e, e2] at this
    have := abs_nonneg K
    clear Tlow Tup invlow invup Δlow hS hR hSb hWR
    linarith
  have nz : ∀ K : ℚ, W ≤ 2 ^ 43 * |K| → K ≠ 0 := by
    rintro K hK rfl
    rw [abs_zero, mul_zero] at hK
    exact absurd hK (not_le.mpr W0)
  have pos_iff : ∀ K : ℚ, 0 < K / Δ ↔ 0 < K := fun K => div_pos_iff_of_pos_right Δ0
  have ne0 : ∀ K : ℚ, K ≠ 0 → K / Δ ≠ 0 := fun K h => div_ne_zero h Δ0.ne'
  have zv : (0 : Double).val = 0 := rfl
  obtain ⟨u1, u2⟩ := signE hu' ρs (marg N gN) cU (ne0 N (nz N gN))
  obtain ⟨v1, v2⟩ := signE hu' ρs (marg M gM) cV (ne0 M (nz M gM))
  refine ⟨(Fl.lt_iff _ _).mpr (by rw [zv]; exact d0), ?_, ?_, ?_, ?_, fun hN hM => ?_⟩
  · rw [Fl.lt_iff, zv, u1, pos_iff]
  · intro h; exact u2 (by rw [h]; rfl)
  · rw [Fl.lt_iff, zv, v1, pos_iff]
  · intro h; exact v2 (by rw [h]; rfl)
  · have hs : |(n * (1 / d) + m * (1 / d)).val - ((n * (1 / d)).val + (m * (1 / d)).val)| ≤
        uQ * |(n * (1 / d)).val + (m * (1 / d)).val| + ηQ := by
      rw [Fl.add_val]
      refine rndE ((abs_add_le _ _).trans ((add_le_add bU bV).trans ?_))
      calc (2 : ℚ) ^ 500 + 2 ^ 500 = 2 ^ 501 := by rw [pow_succ (2 : ℚ) 500]; ring
        _ ≤ 2 ^ 1023 := qpow_le (by norm_num)
    have eZ : N / Δ + M / Δ - 1 = (N + M - Δ) / Δ := by field_simp
    have gz := marg _ gZ
    rw [← eZ] at gz
    have hne : N / Δ + M / Δ ≠ 1 := by
      intro h
      have : (N + M - Δ) / Δ = 0 := by rw [← eZ, h]; ring
      exact ne0 _ (nz _ gZ) this
    obtain ⟨s1, s2⟩ := sumE hu.le hu' ρs ρν uν ((pos_iff N).mpr hN) ((pos_iff M).mpr hM) cU cV hs ην gz hne
    refine ⟨?_, fun h => s2 (by rw [h]; rfl)⟩
    rw [Fl.lt_iff, one, s1, ← add_div, div_lt_one Δ0]

theorem perm3 {α : Type} {a b c x y z : α} (h : [x, y, z].Perm [a, b, c]) :
    (x = a ∧ y = b ∧ z = c) ∨ (x = a ∧ y = c ∧ z = b) ∨ (x = b ∧ y = a ∧ z = c) ∨ (x = b ∧ y = c ∧ z = a) ∨
    (x = c ∧ y = a ∧ z = b) ∨ (x = c ∧ y = b ∧ z = a) := by
  have two : ∀ {p q r s : α}, [p, q].Perm [r, s] → (p = r ∧ q = s) ∨ (p = s ∧ q = r) := by
    intro p q r s h
    have hp : p ∈ [r, s] := h.mem_iff.mp (by simp)
    rcases List.mem_cons.mp hp with rfl | hp
    · exact .inl ⟨rfl, by simpa using (List.perm_cons _).mp h⟩
    · obtain rfl : p = s := by simpa using hp
      have h' := h.trans (List.Perm.swap _ _ _)
      exact .inr ⟨rfl, by simpa using (List.perm_cons _).mp h'⟩
  have hx : x ∈ [a, b, c] := h.mem_iff.mp (by simp)
  rcases List.mem_cons.mp hx with rfl | hx
  · rcases two ((List.perm_cons _).mp h) with ⟨rfl, rfl⟩ | ⟨rfl, rfl⟩ <;> simp
  rcases List.mem_cons.mp hx with rfl | hx
  · rcases two ((List.perm_cons _).mp (h.trans (List.Perm.swap _ _ _))) with ⟨rfl, rfl⟩ | ⟨rfl, rfl⟩ <;> simp
  · obtain rfl : x = c := by simpa using hx
    have h' := h.trans ((List.perm_append_comm (l₁ := [a, b]) (l₂ := [x])))
    rcases two ((List.perm_cons _).mp h') with ⟨rfl, rfl⟩ | ⟨rfl, rfl⟩ <;> simp

/-- Away from the boundary the two closures agree. -/
theorem tri_final {K : Type} [LinearOrder K] [Zero K] [One K] [Add K] {U V : K} (lead : Bool) (hU : U ≠ 0) (hV : V ≠ 0)
    (hs : 0 < U → 0 < V → U + V ≠ 1) :
    (if lead then (Except.ok (decide (U ≥ 0) && decide (V ≥ 0) && decide (U + V < 1)) : Py Bool)
      else .ok (decide (U > 0) && decide (V > 0) && decide (U + V ≤ 1))) =
    .ok (decide (0 < U) && decide (0 < V) && decide (U + V < 1)) := by
  have e1 : (U ≥ 0) ↔ 0 < U := ⟨fun h => lt_of_le_of_ne h (Ne.symm hU), le_of_lt⟩
  have e2 : (V ≥ 0) ↔ 0 < V := ⟨fun h => lt_of_le_of_ne h (Ne.symm hV), le_of_lt⟩
  cases lead
  · simp only [Bool.false_eq_true, if_false, gt_iff_lt]
    by_cases h1 : 0 < U
    · by_cases h2 : 0 < V
      · have : (U + V ≤ 1) ↔ U + V < 1 := ⟨fun h => lt_of_le_of_ne h (hs h1 h2), le_of_lt⟩
        rw [decide_eq_decide.mpr this]
      · simp only [h2, decide_false, Bool.and_false, Bool.false_and]
    · simp only [h1, decide_false, Bool.false_and]
  · simp only [if_true]
    rw [decide_eq_decide.mpr e1, decide_eq_decide.mpr e2]

theorem and3 {a b c a' b' c' : Prop} [Decidable a] [Decidable b] [Decidable c] [Decidable a'] [Decidable b'] [Decidable c']
    (h1 : a ↔ a') (h2 : b ↔ b') (h3 : a' → b' → (c ↔ c')) :
    (decide a && decide b && decide c) = (decide a' && decide b' && decide c') := by
  by_cases x : a' <;> by_cases y : b' <;> simp [h1, h2, x, y]
  exact h3 x y

/-- The triangle test in double precision, for the sorted vertices. -/
theorem tri_double (eps : Double) {vs : List (Vec2 Double)} (h3 : vs.length = 3) {lo mid hi p : Vec2 Double}
    (hsort : pySorted yxLt vs = [lo, mid, hi]) {S R : ℚ} (hS : 1 / 2 ^ 200 ≤ S) (hSR : S ≤ R) (hR : R ≤ 2 ^ 200)
    (a1 : |lo.x.val - mid.x.val| ≤ S) (a2 : |lo.y.val - mid.y.val| ≤ S)
    (a3 : |hi.x.val - mid.x.val| ≤ S) (a4 : |hi.y.val - mid.y.val| ≤ S)
    (a5 : |p.x.val - mid.x.val| ≤ R) (a6 : |p.y.val - mid.y.val| ≤ R)
    (hthin : S * S * (S * S) ≤ 2 ^ 39 * (side lo.exact mid.exact hi.exact * side lo.exact mid.exact hi.exact))
    (c1 : S * S * (S * R) ≤ 2 ^ 43 * |side lo.exact mid.exact p.exact * side lo.exact mid.exact hi.exact|)
    (c2 : S * S * (S * R) ≤ 2 ^ 43 * |side mid.exact hi.exact p.exact * side lo.exact mid.exact hi.exact|)
    (c3 : S * S * (S * R) ≤ 2 ^ 43 * |side hi.exact lo.exact p.exact * side lo.exact mid.exact hi.exact|)
    (n1 : 2 * (eps * eps).val ≤ (lo.exact - mid.exact).length2) (n2 : 2 * (eps * eps).val ≤ (hi.exact - mid.exact).length2) :
    ((Polygon.fromPoints vs).containsPoint eps (.vec p)).1 = .ok (winding (vs.map Vec2.exact) p.exact != 0) := by
  have hu := uQ_pos
  have hu' := uQ_small
  have S0 : 0 < S := lt_of_lt_of_le (by positivity) hS
  have R0 : 0 < R := S0.trans_le hSR
  have hSb : S ≤ 2 ^ 200 := hSR.trans hR
  -- the exact objects
  set X0 := lo.x.val - mid.x.val with hX0
  set Y0 := lo.y.val - mid.y.val with hY0
  set X1 := hi.x.val - mid.x.val with hX1
  set Y1 := hi.y.val - mid.y.val with hY1
  set X2 := p.x.val - mid.x.val with hX2
  set Y2 := p.y.val - mid.y.val with hY2
  have ex : ∀ v w : Vec2 Double, (v.exact - w.exact).x = v.x.val - w.x.val := fun _ _ => rfl
  have ey : ∀ v w : Vec2 Double, (v.exact - w.exact).y = v.y.val - w.y.val := fun _ _ => rfl
  set D := side lo.exact mid.exact hi.exact with hD
  have eD : D = X1 * Y0 - Y1 * X0 := by
    rw [hD, hX0, hX1, hY0, hY1]; simp only [side, exact_x, exact_y]; ring
  set N := (X1 * X1 + Y1 * Y1) * (X0 * X2 + Y0 * Y2) - (X0 * X1 + Y0 * Y1) * (X1 * X2 + Y1 * Y2) with hN
  set M := (X0 * X0 + Y0 * Y0) * (X1 * X2 + Y1 * Y2) - (X0 * X1 + Y0 * Y1) * (X0 * X2 + Y0 * Y2) with hM
  set Δ := (X0 * X0 + Y0 * Y0) * (X1 * X1 + Y1 * Y1) - (X0 * X1 + Y0 * Y1) * (X0 * X1 + Y0 * Y1) with hΔ
  have eΔ : Δ = D * D := by rw [hΔ, eD]; ring
  have s1 : side lo.exact mid.exact p.exact = Y0 * X2 - X0 * Y2 := by
    rw [hX0, hY0, hX2, hY2]; simp only [side, exact_x, exact_y]; ring
  have s2 : side mid.exact hi.exact p.exact = X1 * Y2 - Y1 * X2 := by
    rw [hX1, hY1, hX2, hY2]; simp only [side, exact_x, exact_y]
  have s3 : side hi.exact lo.exact p.exact = X0 * Y2 - Y0 * X2 + (Y1 * X2 - X1 * Y2) + (X1 * Y0 - X0 * Y1) := by
    rw [hX0, hY0, hX1, hY1, hX2, hY2]; simp only [side, exact_x, exact_y]; ring
  have eN : N = -(side mid.exact hi.exact p.exact * D) ∨ N = side mid.exact hi.exact p.exact * D := by
    first
      | (left; rw [hN, s2, eD]; ring1)
      | (right; rw [hN, s2, eD]; ring1)
  have eM : M = -(side lo.exact mid.exact p.exact * D) ∨ M = side lo.exact mid.exact p.exact * D := by
    first
      | (left; rw [hM, s1, eD]; ring1)
      | (right; rw [hM, s1, eD]; ring1)
  have eZ : N + M - Δ = -(side hi.exact lo.exact p.exact * D) ∨ N + M - Δ = side hi.exact lo.exact p.exact * D := by
    first
      | (left; rw [hN, hM, hΔ, s3, eD]; ring1)
      | (right; rw [hN, hM, hΔ, s3, eD]; ring1)
  have aN : |N| = |side mid.exact hi.exact p.exact * D| := by rcases eN with h | h <;> simp only [h, abs_neg]
  have aM : |M| = |side lo.exact mid.exact p.exact * D| := by rcases eM with h | h <;> simp only [h, abs_neg]
  have aZ : |N + M - Δ| = |side hi.exact lo.exact p.exact * D| := by rcases eZ with h | h <;> simp only [h, abs_neg]
  rw [← aN] at c2
  rw [← aM] at c1
  rw [← aZ] at c3
  rw [← eΔ] at hthin
  have T0 : 0 < S * S * (S * S) := by positivity
  have W0 : 0 < S * S * (S * R) := by positivity
  have Δ0 : 0 < Δ := by
    rcases lt_or_ge 0 Δ with h | h
    · exact h
    · have : (2 : ℚ) ^ 39 * Δ ≤ 0 := mul_nonpos_of_nonneg_of_nonpos (by positivity) h
      exact absurd (hthin.trans this) (not_le.mpr T0)
  have nz : ∀ z : ℚ, S * S * (S * R) ≤ 2 ^ 43 * |z| → z ≠ 0 := by
    rintro z h rfl
    rw [abs_zero, mul_zero] at h
    exact absurd h (not_le.mpr W0)
  -- the computed objects
  have f1 := subE lo.x mid.x a1 hSb
  have f2 := subE lo.y mid.y a2 hSb
  have f3 := subE hi.x mid.x a3 hSb
  have f4 := subE hi.y mid.y a4 hSb
  have f5 := subE p.x mid.x a5 hR
  have f6 := subE p.y mid.y a6 hR
  have SSl : 1 / 2 ^ 400 ≤ S * S := by
    have h1 : (1 : ℚ) / 2 ^ 200 * (1 / 2 ^ 200) ≤ S * S := mul_le_mul hS hS (by positivity) S0.le
    have e : (1 : ℚ) / 2 ^ 400 = 1 / 2 ^ 200 * (1 / 2 ^ 200) := by
      rw [show (400 : ℕ) = 200 + 200 by norm_num, pow_add]; ring
    rw [e]; exact h1
  have SRl : 1 / 2 ^ 400 ≤ S * R := SSl.trans (mul_le_mul_of_nonneg_left hSR S0.le)
  have SSu : S * S ≤ 2 ^ 400 := by
    have h1 : S * S ≤ 2 ^ 200 * 2 ^ 200 := mul_le_mul hSb hSb S0.le (by positivity)
    rwa [← pow_add] at h1
  have SRu : S * R ≤ 2 ^ 400 := by
    have h1 : S * R ≤ 2 ^ 200 * 2 ^ 200 := mul_le_mul hSb hR R0.le (by positivity)
    rwa [← pow_add] at h1
  have prl : ∀ a b : ℚ, 1 / 2 ^ 400 ≤ a → 1 / 2 ^ 400 ≤ b → 1 / 2 ^ 800 ≤ a * b := by
    intro a b ha hb
    have h1 : (1 : ℚ) / 2 ^ 400 * (1 / 2 ^ 400) ≤ a * b := mul_le_mul ha hb (by positivity) (le_trans (by positivity) ha)
    have e : (1 : ℚ) / 2 ^ 800 = 1 / 2 ^ 400 * (1 / 2 ^ 400) := by
      rw [show (800 : ℕ) = 400 + 400 by norm_num, pow_add]; ring
    rw [e]; exact h1
  have pru : ∀ a b : ℚ, 0 ≤ b → a ≤ 2 ^ 400 → b ≤ 2 ^ 400 → a * b ≤ 2 ^ 800 := by
    intro a b h0 ha hb
    have h1 : a * b ≤ 2 ^ 400 * 2 ^ 400 := mul_le_mul ha hb h0 (by positivity)
    rwa [← pow_add] at h1
  have d00 : |((lo - mid).length2).val - (X0 * X0 + Y0 * Y0)| ≤ 81 / 10 * uQ * (S * S) ∧
      |X0 * X0 + Y0 * Y0| ≤ 2 * (S * S) := dotD (v := lo - mid) (w := lo - mid) a1 a2 a1 a2 f1 f2 f1 f2 hSb hSb SSl
  have d01 : |((lo - mid).dot (hi - mid)).val - (X0 * X1 + Y0 * Y1)| ≤ 81 / 10 * uQ * (S * S) ∧
      |X0 * X1 + Y0 * Y1| ≤ 2 * (S * S) := dotD (v := lo - mid) (w := hi - mid) a1 a2 a3 a4 f1 f2 f3 f4 hSb hSb SSl
  have d11 : |((hi - mid).length2).val - (X1 * X1 + Y1 * Y1)| ≤ 81 / 10 * uQ * (S * S) ∧
      |X1 * X1 + Y1 * Y1| ≤ 2 * (S * S) := dotD (v := hi - mid) (w := hi - mid) a3 a4 a3 a4 f3 f4 f3 f4 hSb hSb SSl
  have d02 : |((lo - mid).dot (p - mid)).val - (X0 * X2 + Y0 * Y2)| ≤ 81 / 10 * uQ * (S * R) ∧
      |X0 * X2 + Y0 * Y2| ≤ 2 * (S * R) := dotD (v := lo - mid) (w := p - mid) a1 a2 a5 a6 f1 f2 f5 f6 hSb hR SRl
  have d12 : |((hi - mid).dot (p - mid)).val - (X1 * X2 + Y1 * Y2)| ≤ 81 / 10 * uQ * (S * R) ∧
      |X1 * X2 + Y1 * Y2| ≤ 2 * (S * R) := dotD (v := hi - mid) (w := p - mid) a3 a4 a5 a6 f3 f4 f5 f6 hSb hR SRl
  have TL := prl _ _ SSl SSl
  have WL := prl _ _ SSl SRl
  have TU := pru _ _ (by positivity) SSu SSu
  have WU := pru _ _ (by positivity) SSu SRu
  obtain ⟨gN, bN⟩ := crossD (W := S * S * (S * R)) rfl rfl d11.2 d02.2 d01.2 d12.2 d11.1 d02.1 d01.1 d12.1 WL WU
  obtain ⟨gM, bM⟩ := crossD (W := S * S * (S * R)) rfl rfl d00.2 d12.2 d01.2 d02.2 d00.1 d12.1 d01.1 d02.1 WL WU
  obtain ⟨gD, bD⟩ := crossD (W := S * S * (S * S)) rfl rfl d00.2 d11.2 d01.2 d01.2 d00.1 d11.1 d01.1 d01.1 TL TU
  obtain ⟨k0, k1, k2, k3, k4, k5⟩ := closureD hS hSR hR gN gM gD bN bM bD Δ0.le hthin c2 c1 c3
  -- not null
  have len : ∀ (L L' : ℚ) (l : Double), 0 ≤ L → |l.val - L| ≤ 81 / 10 * uQ * (S * S) → Δ ≤ L * L' → L' ≤ 2 * (S * S) →
      2 * (eps * eps).val ≤ L → ¬ l < eps * eps := by
    intro L L' l hL h1 h2 h3 h4
    rw [not_lt, val_le]
    have q1 : S * S * (S * S) ≤ 2 ^ 39 * (L * (2 * (S * S))) :=
      hthin.trans (mul_le_mul_of_nonneg_left (h2.trans (mul_le_mul_of_nonneg_left h3 hL)) (by positivity))
    have q2 : S * S ≤ 2 ^ 40 * L := by
      have : S * S * (S * S) ≤ 2 ^ 40 * L * (S * S) := q1.trans (le_of_eq (by ring))
      exact le_of_mul_le_mul_right this (by positivity)
    have q3 : 81 / 10 * uQ * (S * S) ≤ 81 / 10 * uQ * (2 ^ 40 * L) := mul_le_mul_of_nonneg_left q2 (by positivity)
    have q4 : 81 / 10 * uQ * (2 ^ 40 * L) ≤ 1 / 100 * L := by
      have : 81 / 10 * uQ * (2 ^ 40 * L) = 81 / 10 * (uQ * 2 ^ 40) * L := by ring
      rw [this]
      exact mul_le_mul_of_nonneg_right (by norm_num [uQ]) hL
    have q5 := (abs_le.mp h1).1
    clear TL WL TU WU SSl SRl SSu SRu hS hR hSb
    linarith
  have sq : ∀ a b : ℚ, 0 ≤ a * a + b * b := fun a b => add_nonneg (mul_self_nonneg a) (mul_self_nonneg b)
  have hΔle : Δ ≤ (X0 * X0 + Y0 * Y0) * (X1 * X1 + Y1 * Y1) := by
    rw [hΔ]; exact sub_le_self _ (mul_self_nonneg _)
  have m0 : (lo - mid).isNull eps = false := by
    unfold Vec2.isNull eps2
    rw [decide_eq_false_iff_not]
    exact len _ _ _ (sq X0 Y0) d00.1 hΔle (le_of_abs_le d11.2) n1
  have m1 : (hi - mid).isNull eps = false := by
    unfold Vec2.isNull eps2
    rw [decide_eq_false_iff_not]
    exact len _ _ _ (sq X1 Y1) d11.1 (by rw [mul_comm]; exact hΔle) (le_of_abs_le d00.2) n2
  -- the exact answer
  have hlt : ∀ a b : Vec2 Double, yxLt a.exact b.exact = yxLt a b := by
    intro a b; unfold yxLt; simp only [exact_x, exact_y, val_beq, val_lt]; rfl
  have hsort' : pySorted yxLt (vs.map Vec2.exact) = [lo.exact, mid.exact, hi.exact] := by
    rw [pySorted_map Vec2.exact yxLt yxLt hlt, hsort]; rfl
  have hperm := pySorted_perm yxLt (vs.map Vec2.exact)
  have hpw := pySorted_pairwise yxLt_trans yxLt_total (vs.map Vec2.exact)
  rw [hsort'] at hpw hperm
  simp only [List.pairwise_cons, List.mem_cons, List.not_mem_nil, or_false, forall_eq_or_imp, forall_eq] at hpw
  have o1 := (yxLt_iff _ _).mp hpw.1.1
  have o2 := (yxLt_iff _ _).mp hpw.2.1
  have z : ∀ v : Vec2 ℚ, v.isNull 0 = false := by
    intro v
    unfold Vec2.isNull eps2
    rw [decide_eq_false_iff_not, mul_zero, not_lt]
    exact sq v.x v.y
  rw [← C50_triangle_partial 0 _ _ _ _ hperm.symm o1 o2 (z _) (z _) p.exact,
    tri_answer eps vs h3 lo mid hi hsort, tri_answer 0 (vs.map Vec2.exact) (by simpa using h3) _ _ _ hsort']
  have eΔ' : (lo.exact - mid.exact).length2 * (hi.exact - mid.exact).length2 -
      (lo.exact - mid.exact).dot (hi.exact - mid.exact) * (lo.exact - mid.exact).dot (hi.exact - mid.exact) = Δ := rfl
  have hd0 : (lo - mid).length2 * (hi - mid).length2 - (lo - mid).dot (hi - mid) * (lo - mid).dot (hi - mid) ≠ 0 :=
    ne_of_gt k0
  simp only [m0, m1, z, Bool.or_self, Bool.false_eq_true, if_false, hd0, eΔ', Δ0.ne']
  unfold TriClosure.run
  simp only [PyPoint.sub, bind, Except.bind, pure, Except.pure]
  have hsum : 0 < N → 0 < M → N + M ≠ Δ := fun _ _ h => nz _ c3 (by rw [h, sub_self])
  have hΔ1 : 0 < 1 / Δ := by positivity
  have q1 : ∀ k : ℚ, 0 < k * (1 / Δ) ↔ 0 < k := fun k => ⟨fun h => by
    by_contra hc
    exact absurd h (not_lt.mpr (mul_nonpos_of_nonpos_of_nonneg (not_lt.mp hc) hΔ1.le)), fun h => mul_pos h hΔ1⟩
  have q2 : (N * (1 / Δ) + M * (1 / Δ) < 1) ↔ N + M < Δ := by
    rw [← add_mul, mul_one_div, div_lt_one Δ0]
  have q3 : N * (1 / Δ) + M * (1 / Δ) = 1 ↔ N + M = Δ := by
    rw [← add_mul, mul_one_div, div_eq_one_iff_eq Δ0.ne']
  have F1 := tri_final (decide ((hi.x - lo.x)*(mid.y - lo.y) - (mid.x - lo.x)*(hi.y - lo.y) > 0)) k2 k4
    (fun h1 h2 => (k5 (k1.mp h1) (k3.mp h2)).2)
  have F2 := tri_final (U := N * (1 / Δ)) (V := M * (1 / Δ)) (decide ((hi.exact.x - lo.exact.x)*(mid.exact.y - lo.exact.y) - (mid.exact.x - lo.exact.x)*(hi.exact.y - lo.exact.y) > 0))
    (mul_ne_zero (nz _ c2) hΔ1.ne') (mul_ne_zero (nz _ c1) hΔ1.ne')
    (fun h1 h2 h => hsum ((q1 _).mp h1) ((q1 _).mp h2) (q3.mp h))
  have eN' : (hi.exact - mid.exact).length2 * (lo.exact - mid.exact).dot (p.exact - mid.exact) -
      (lo.exact - mid.exact).dot (hi.exact - mid.exact) * (hi.exact - mid.exact).dot (p.exact - mid.exact) = N := rfl
  have eM' : (lo.exact - mid.exact).length2 * (hi.exact - mid.exact).dot (p.exact - mid.exact) -
      (lo.exact - mid.exact).dot (hi.exact - mid.exact) * (lo.exact - mid.exact).dot (p.exact - mid.exact) = M := rfl
  simp only [eN', eM']
  refine Eq.trans F1 ?_
  refine Eq.trans ?_ F2.symm
  exact congrArg Except.ok (and3 (k1.trans (q1 N).symm) (k3.trans (q1 M).symm)
    fun h1 h2 => ((k5 ((q1 N).mp h1) ((q1 M).mp h2)).1.trans q2.symm))

end Planar
