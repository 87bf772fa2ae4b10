import Mathlib.Analysis.Real.Sqrt
import Mathlib.Tactic.Linarith
import Mathlib.Tactic.Ring
import Mathlib.Tactic.FieldSimp
/- Error propagation through the computation of a length and of a unit vector, with a relative error `u` and an absolute
error `η` of each operation. -/
namespace Planar

/-- The squared length, computed. -/
theorem sq_err {x y a b t u η : ℝ} (hu : 0 ≤ u) (hη : 0 ≤ η)
    (ha : |a - x * x| ≤ u * (x * x) + η) (hb : |b - y * y| ≤ u * (y * y) + η) (ht : |t - (a + b)| ≤ u * |a + b| + η) :
    |t - (x * x + y * y)| ≤ (2 * u + u * u) * (x * x + y * y) + (3 + 2 * u) * η := by
  have hx := mul_self_nonneg x
  have hy := mul_self_nonneg y
  obtain ⟨a1, a2⟩ := abs_le.mp ha
  obtain ⟨b1, b2⟩ := abs_le.mp hb
  obtain ⟨t1, t2⟩ := abs_le.mp ht
  have hab : |a + b| ≤ (1 + u) * (x * x + y * y) + 2 * η := by
    refine abs_le.mpr ⟨?_, by linarith⟩
    nlinarith [mul_nonneg hu hx, mul_nonneg hu hy]
  have h1 := mul_le_mul_of_nonneg_left hab hu
  refine abs_le.mpr ⟨?_, ?_⟩ <;> nlinarith

/-- The length, computed, when the absolute errors do not count. -/
theorem len_err {x y a b t L u η : ℝ} (hu : 0 ≤ u) (hu' : u ≤ 1 / 1000) (hη : 0 ≤ η)
    (ha : |a - x * x| ≤ u * (x * x) + η) (hb : |b - y * y| ≤ u * (y * y) + η) (ht : |t - (a + b)| ≤ u * |a + b| + η)
    (hL : |L - √t| ≤ 2 * u * √t) (hs : 50 * η ≤ u * (x * x + y * y)) :
    |L - √(x * x + y * y)| ≤ 31 / 10 * u * √(x * x + y * y) := by
  have hq := sq_err hu hη ha hb ht
  have hs0 : 0 ≤ x * x + y * y := add_nonneg (mul_self_nonneg x) (mul_self_nonneg y)
  generalize x * x + y * y = s at *
  have hus : 0 ≤ u * s := mul_nonneg hu hs0
  have h21 : |t - s| ≤ 21 / 10 * (u * s) := by
    refine hq.trans ?_
    have h1 : u * u * s ≤ 1 / 1000 * (u * s) := by nlinarith
    have h2 : 2 * u * η ≤ 1 / 500 * η := by nlinarith
    nlinarith
  obtain ⟨t1, t2⟩ := abs_le.mp h21
  have hts : s * (1 - 21 / 10 * u) ≤ t := by linarith
  have ht0 : 0 ≤ t := le_trans (mul_nonneg hs0 (by linarith)) hts
  have r0 := Real.sqrt_nonneg s
  have q0 := Real.sqrt_nonneg t
  have rr := Real.mul_self_sqrt hs0
  have qq := Real.mul_self_sqrt ht0
  generalize √s = r at *
  generalize √t = q at *
  -- q is within 11/10 u r of r
  have hq1 : q ≤ r * (1 + 106 / 100 * u) := by
    by_contra hc
    have hc := not_le.mp hc
    have hp : 0 ≤ r * (1 + 106 / 100 * u) := mul_nonneg r0 (by linarith)
    have : (r * (1 + 106 / 100 * u)) * (r * (1 + 106 / 100 * u)) < q * q := mul_self_lt_mul_self hp hc
    nlinarith [mul_nonneg hu hs0, mul_nonneg (mul_nonneg hu hu) hs0]
  have hq2 : r * (1 - 106 / 100 * u) ≤ q := by
    by_contra hc
    have hc := not_le.mp hc
    have : q * q < (r * (1 - 106 / 100 * u)) * (r * (1 - 106 / 100 * u)) := mul_self_lt_mul_self q0 hc
    have e : (r * (1 - 106 / 100 * u)) * (r * (1 - 106 / 100 * u)) = s * ((1 - 106 / 100 * u) * (1 - 106 / 100 * u)) := by
      rw [← rr]; ring
    have : (1 - 106 / 100 * u) * (1 - 106 / 100 * u) ≤ 1 - 21 / 10 * u := by nlinarith
    nlinarith [mul_le_mul_of_nonneg_left this hs0]
  obtain ⟨l1, l2⟩ := abs_le.mp hL
  have hur : 0 ≤ u * r := mul_nonneg hu r0
  have huq : u * q ≤ u * r * (1 + 106 / 100 * u) := by
    have := mul_le_mul_of_nonneg_left hq1 hu; linarith
  have huur : u * r * u ≤ 1 / 1000 * (u * r) := by nlinarith
  refine abs_le.mpr ⟨?_, ?_⟩ <;> nlinarith

/-- A computed length above `eps` is not that of a tiny vector. -/
theorem len_low {x y a b t L u η eps : ℝ} (hu : 0 ≤ u) (hu' : u ≤ 1 / 1000) (hη : 0 ≤ η)
    (ha : |a - x * x| ≤ u * (x * x) + η) (hb : |b - y * y| ≤ u * (y * y) + η) (ht : |t - (a + b)| ≤ u * |a + b| + η)
    (ht0 : 0 ≤ t) (hL : |L - √t| ≤ 2 * u * √t) (he : 0 < eps) (heps : 100 * η ≤ u * (eps * eps)) (h : eps < L) :
    50 * η ≤ u * (x * x + y * y) := by
  have hq := sq_err hu hη ha hb ht
  have hs0 : 0 ≤ x * x + y * y := add_nonneg (mul_self_nonneg x) (mul_self_nonneg y)
  generalize x * x + y * y = s at *
  have q0 := Real.sqrt_nonneg t
  have qq := Real.mul_self_sqrt ht0
  generalize √t = q at *
  obtain ⟨l1, l2⟩ := abs_le.mp hL
  obtain ⟨t1, t2⟩ := abs_le.mp hq
  have hq1 : eps * (9 / 10) ≤ q := by nlinarith
  have hq2 : 8 / 10 * (eps * eps) ≤ t := by
    have := mul_self_le_mul_self (by linarith : 0 ≤ eps * (9 / 10)) hq1
    nlinarith [mul_self_nonneg eps]
  have hee := mul_self_nonneg eps
  have hs1 : 7 / 10 * (eps * eps) ≤ s := by
    have h1 : u * s ≤ 1 / 1000 * s := mul_le_mul_of_nonneg_right hu' hs0
    have h2 : u * u * s ≤ 1 / 1000 * s := by nlinarith
    have h3 : (3 + 2 * u) * η ≤ 4 * η := by nlinarith
    have h4 : u * (eps * eps) ≤ 1 / 1000 * (eps * eps) := mul_le_mul_of_nonneg_right hu' hee
    nlinarith
  nlinarith [mul_le_mul_of_nonneg_left hs1 hu]

/-- A component of the unit vector, computed. -/
theorem quot_err {x r L n u η : ℝ} (hu : 0 ≤ u) (hu' : u ≤ 1 / 1000) (hr : 0 < r) (hL : |L - r| ≤ 31 / 10 * u * r)
    (hn : |n - x / L| ≤ u * |x / L| + η) : |n - x / r| ≤ 5 * u * (|x| / r) + η := by
  obtain ⟨l1, l2⟩ := abs_le.mp hL
  have hL1 : r * (996 / 1000) ≤ L := by nlinarith
  have hL0 : 0 < L := by nlinarith
  have e1 : |x / L| = |x| / L := by rw [abs_div, abs_of_pos hL0]
  have hxL : |x| / L ≤ 1000 / 996 * (|x| / r) := by
    rw [div_le_iff₀ hL0]
    have := mul_le_mul_of_nonneg_left hL1 (show 0 ≤ 1000 / 996 * (|x| / r) by positivity)
    have e : 1000 / 996 * (|x| / r) * (r * (996 / 1000)) = |x| := by field_simp
    linarith
  have hx0 : 0 ≤ |x| / r := by positivity
  have d : |x / L - x / r| ≤ 31 / 10 * u * (|x| / L) := by
    have : x / L - x / r = x * (r - L) / (L * r) := by field_simp
    rw [this, abs_div, abs_mul, abs_of_pos (mul_pos hL0 hr), abs_sub_comm]
    rw [div_le_iff₀ (mul_pos hL0 hr)]
    have e : 31 / 10 * u * (|x| / L) * (L * r) = |x| * (31 / 10 * u * r) := by field_simp
    rw [e]
    exact mul_le_mul_of_nonneg_left hL (abs_nonneg x)
  have tri : |n - x / r| ≤ |n - x / L| + |x / L - x / r| := by
    have := abs_add_le (n - x / L) (x / L - x / r)
    rwa [sub_add_sub_cancel] at this
  rw [e1] at hn
  have h1 := mul_le_mul_of_nonneg_left hxL hu
  have hux := mul_nonneg hu hx0
  nlinarith

/-- A product with a component of a unit vector, computed. -/
theorem prod_err {x a c p A u η : ℝ} (hu : 0 ≤ u) (hu' : u ≤ 1 / 1000) (hη : 0 ≤ η) (ha : |a - x| ≤ u * |x|)
    (hp : |p - c| ≤ 8 * u * |c| + η) (hA : |A - a * p| ≤ u * |a * p| + η) :
    |A - x * c| ≤ 101 / 10 * u * |x * c| + 11 / 10 * |x| * η + η := by
  have x0 := abs_nonneg x
  have c0 := abs_nonneg c
  have bx : |a| ≤ (1 + u) * |x| := by
    have := abs_sub_abs_le_abs_sub a x; linarith
  have d : |a * p - x * c| ≤ (1 + u) * |x| * (8 * u * |c| + η) + u * |x| * |c| := by
    have e : a * p - x * c = a * (p - c) + (a - x) * c := by ring
    rw [e]
    refine (abs_add_le _ _).trans ?_
    rw [abs_mul, abs_mul]
    exact add_le_add (mul_le_mul bx hp (abs_nonneg _) (by positivity)) (mul_le_mul_of_nonneg_right ha c0)
  have q : |a * p| ≤ |x * c| + |a * p - x * c| := by
    have := abs_sub_abs_le_abs_sub (a * p) (x * c); linarith
  have tri := abs_sub_le A (a * p) (x * c)
  rw [abs_mul x c] at *
  generalize |a * p| = P at *
  generalize |a * p - x * c| = Q at *
  generalize |A - a * p| = R at *
  generalize |A - x * c| = S at *
  have hxc : 0 ≤ |x| * |c| := by positivity
  have hxe : 0 ≤ |x| * η := by positivity
  have e1 : (1 + u) * |x| * (8 * u * |c| + η) + u * |x| * |c| = (9 * u + 8 * (u * u)) * (|x| * |c|) + (1 + u) * (|x| * η) := by
    ring
  rw [e1] at d
  generalize |x| * |c| = T at *
  rw [mul_assoc (11 / 10 : ℝ)]
  generalize |x| * η = W at *
  have huT : 0 ≤ u * T := mul_nonneg hu hxc
  have huuT : u * u * T ≤ 1 / 1000 * (u * T) := by nlinarith
  have huW : u * W ≤ 1 / 1000 * W := by nlinarith
  have hQ : Q ≤ 9008 / 1000 * (u * T) + 1001 / 1000 * W := by nlinarith
  have hP : u * P ≤ u * (T + Q) := mul_le_mul_of_nonneg_left q hu
  have hQ' : u * Q ≤ u * (9008 / 1000 * (u * T) + 1001 / 1000 * W) := mul_le_mul_of_nonneg_left hQ hu
  nlinarith

/-- Cauchy-Schwarz for a unit vector. -/
theorem unit_dot_le {x y c s : ℝ} (h : c * c + s * s = 1) : |x * c| + |y * s| ≤ √(x * x + y * y) := by
  apply Real.le_sqrt_of_sq_le
  rw [abs_mul, abs_mul]
  have e1 : |x| * |x| = x * x := abs_mul_abs_self x
  have e2 : |y| * |y| = y * y := abs_mul_abs_self y
  have e3 : |c| * |c| = c * c := abs_mul_abs_self c
  have e4 : |s| * |s| = s * s := abs_mul_abs_self s
  nlinarith [sq_nonneg (|x| * |s| - |y| * |c|)]

theorem abs_le_norm (x y : ℝ) : |x| ≤ √(x * x + y * y) := by
  apply Real.le_sqrt_of_sq_le
  have e1 : |x| * |x| = x * x := abs_mul_abs_self x
  nlinarith [mul_self_nonneg y]

/-- The product with a unit vector, computed. -/
theorem dot_err {x y a b c s p q A B D u η : ℝ} (hu : 0 ≤ u) (hu' : u ≤ 1 / 1000) (hη : 0 ≤ η) (hη' : 1000 * η ≤ u)
    (hcs : c * c + s * s = 1) (ha : |a - x| ≤ u * |x|) (hb : |b - y| ≤ u * |y|)
    (hp : |p - c| ≤ 8 * u * |c| + η) (hq : |q - s| ≤ 8 * u * |s| + η)
    (hA : |A - a * p| ≤ u * |a * p| + η) (hB : |B - b * q| ≤ u * |b * q| + η) (hD : |D - (A + B)| ≤ u * |A + B| + η) :
    |D - (x * c + y * s)| ≤ 12 * u * √(x * x + y * y) + 4 * η := by
  have h1 := prod_err hu hu' hη ha hp hA
  have h2 := prod_err hu hu' hη hb hq hB
  have h3 := unit_dot_le (x := x) (y := y) hcs
  have hx := abs_le_norm x y
  have hy : |y| ≤ √(x * x + y * y) := by rw [add_comm]; exact abs_le_norm y x
  have hr := Real.sqrt_nonneg (x * x + y * y)
  generalize √(x * x + y * y) = r at *
  have t1 : |A + B - (x * c + y * s)| ≤ |A - x * c| + |B - y * s| := by
    rw [show A + B - (x * c + y * s) = (A - x * c) + (B - y * s) by ring]; exact abs_add_le _ _
  have t2 : |A + B| ≤ |x * c| + |y * s| + |A + B - (x * c + y * s)| := by
    have := abs_sub_abs_le_abs_sub (A + B) (x * c + y * s)
    have := abs_add_le (x * c) (y * s)
    linarith
  have t3 := abs_sub_le D (A + B) (x * c + y * s)
  have n1 := abs_nonneg (x * c)
  have n2 := abs_nonneg (y * s)
  have n3 := abs_nonneg x
  have n4 := abs_nonneg y
  generalize |A + B| = P at *
  generalize |A + B - (x * c + y * s)| = Q at *
  generalize |x * c| = X at *
  generalize |y * s| = Y at *
  generalize |A - x * c| = X' at *
  generalize |B - y * s| = Y' at *
  generalize |x| = xa at *
  generalize |y| = ya at *
  have hsum : X' + Y' ≤ 101 / 10 * (u * r) + 22 / 10 * (r * η) + 2 * η := by
    have m1 : u * (X + Y) ≤ u * r := mul_le_mul_of_nonneg_left h3 hu
    have m2 : xa * η ≤ r * η := mul_le_mul_of_nonneg_right hx hη
    have m3 : ya * η ≤ r * η := mul_le_mul_of_nonneg_right hy hη
    nlinarith
  have hre : r * η ≤ 1 / 1000 * (u * r) := by nlinarith
  have hur : 0 ≤ u * r := mul_nonneg hu hr
  have huur : u * (u * r) ≤ 1 / 1000 * (u * r) := mul_le_mul_of_nonneg_right hu' hur
  have hue : u * η ≤ 1 / 1000 * η := mul_le_mul_of_nonneg_right hu' hη
  have hQ : Q ≤ 102 / 10 * (u * r) + 2 * η := by linarith
  have hP : u * P ≤ u * (r + (102 / 10 * (u * r) + 2 * η)) := mul_le_mul_of_nonneg_left (by linarith) hu
  linarith

/-- Lengths are 1-Lipschitz. -/
theorem norm_lip (x y x' y' : ℝ) : |√(x * x + y * y) - √(x' * x' + y' * y')| ≤ |x - x'| + |y - y'| := by
  have key : ∀ x y x' y' : ℝ, √(x * x + y * y) ≤ √(x' * x' + y' * y') + (|x - x'| + |y - y'|) := by
    intro x y x' y'
    apply Real.sqrt_le_iff.mpr
    have hr := Real.sqrt_nonneg (x' * x' + y' * y')
    have hm := Real.mul_self_sqrt (add_nonneg (mul_self_nonneg x') (mul_self_nonneg y'))
    have h1 := abs_le_norm x' y'
    have h2 : |y'| ≤ √(x' * x' + y' * y') := by rw [add_comm]; exact abs_le_norm y' x'
    have n1 := abs_nonneg (x - x')
    have n2 := abs_nonneg (y - y')
    refine ⟨by positivity, ?_⟩
    generalize √(x' * x' + y' * y') = r at *
    have e1 : x * x = x' * x' + 2 * x' * (x - x') + (x - x') * (x - x') := by ring
    have e2 : y * y = y' * y' + 2 * y' * (y - y') + (y - y') * (y - y') := by ring
    have b1 : x' * (x - x') ≤ r * |x - x'| :=
      (le_abs_self _).trans (by rw [abs_mul]; exact mul_le_mul_of_nonneg_right h1 n1)
    have b2 : y' * (y - y') ≤ r * |y - y'| :=
      (le_abs_self _).trans (by rw [abs_mul]; exact mul_le_mul_of_nonneg_right h2 n2)
    have c1 : (x - x') * (x - x') = |x - x'| * |x - x'| := (abs_mul_abs_self _).symm
    have c2 : (y - y') * (y - y') = |y - y'| * |y - y'| := (abs_mul_abs_self _).symm
    nlinarith [mul_nonneg n1 n2]
  rw [abs_le]
  have k1 := key x y x' y'
  have k2 := key x' y' x y
  rw [abs_sub_comm x' x, abs_sub_comm y' y] at k2
  constructor <;> linarith

/-- The length of a vector, computed, however short. -/
theorem len_abs {x y a b t L u η θ : ℝ} (hu : 0 < u) (hu' : u ≤ 1 / 1000) (hη : 0 ≤ η)
    (ha : |a - x * x| ≤ u * (x * x) + η) (hb : |b - y * y| ≤ u * (y * y) + η) (ht : |t - (a + b)| ≤ u * |a + b| + η)
    (ht0 : 0 ≤ t) (hL : |L - √t| ≤ 2 * u * √t) (hθ : 0 ≤ θ) (hθ' : 100 * η ≤ u * (θ * θ)) :
    |L - √(x * x + y * y)| ≤ 31 / 10 * u * √(x * x + y * y) + 2 * θ := by
  have hr := Real.sqrt_nonneg (x * x + y * y)
  rcases le_or_gt (50 * η) (u * (x * x + y * y)) with h | h
  · have := len_err hu.le hu' hη ha hb ht hL h
    linarith
  · have hq := sq_err hu.le hη ha hb ht
    have hs0 : 0 ≤ x * x + y * y := add_nonneg (mul_self_nonneg x) (mul_self_nonneg y)
    have hs : x * x + y * y ≤ 1 / 2 * (θ * θ) := by
      have : u * (x * x + y * y) ≤ u * (1 / 2 * (θ * θ)) := by linarith
      exact le_of_mul_le_mul_left this hu
    have hr1 : √(x * x + y * y) ≤ θ := Real.sqrt_le_iff.mpr ⟨hθ, by nlinarith⟩
    have ht1 : √t ≤ 9 / 10 * θ := by
      refine Real.sqrt_le_iff.mpr ⟨by linarith, ?_⟩
      have := (abs_le.mp hq).2
      have h1 : (2 * u + u * u) * (x * x + y * y) ≤ 3 / 1000 * (x * x + y * y) :=
        mul_le_mul_of_nonneg_right (by nlinarith) hs0
      have h2 : (3 + 2 * u) * η ≤ 4 * η := mul_le_mul_of_nonneg_right (by linarith) hη
      have h3 : u * (θ * θ) ≤ 1 / 1000 * (θ * θ) := mul_le_mul_of_nonneg_right hu' (mul_self_nonneg θ)
      nlinarith [mul_self_nonneg θ]
    have hL1 : |L| ≤ θ := by
      have := abs_sub_abs_le_abs_sub L (√t)
      have q0 := Real.sqrt_nonneg t
      rw [abs_of_nonneg q0] at this
      nlinarith
    obtain ⟨l1, l2⟩ := abs_le.mp hL1
    have h0 : 0 ≤ u * √(x * x + y * y) := mul_nonneg hu.le hr
    refine abs_le.mpr ⟨?_, ?_⟩ <;> linarith

/-- Pythagoras. -/
theorem pyth_abs {r σ κ : ℝ} (hr : 0 ≤ r) (h : r * r = σ * σ + κ * κ) : |κ| ≤ r ∧ r ≤ |κ| + |σ| := by
  have e1 : |σ| * |σ| = σ * σ := abs_mul_abs_self σ
  have e2 : |κ| * |κ| = κ * κ := abs_mul_abs_self κ
  have n1 := abs_nonneg σ
  have n2 := abs_nonneg κ
  constructor
  · by_contra hc
    have := mul_self_lt_mul_self hr (not_le.mp hc)
    nlinarith
  · by_contra hc
    have := mul_self_lt_mul_self (add_nonneg n2 n1) (not_le.mp hc)
    nlinarith

/-- The distance to a ray does not depend much on which of the two cases is taken near their border. -/
theorem ray_cases {r σ κ σ' K L δ D D' : ℝ} (hr : 0 ≤ r) (h : r * r = σ * σ + κ * κ) (hσ : |σ' - σ| ≤ δ)
    (hK : |K - abs κ| ≤ δ) (hL : |L - r| ≤ δ) (hD : (0 ≤ σ → D = |κ|) ∧ (σ < 0 → D = r))
    (hD' : (0 ≤ σ' → D' = K) ∧ (σ' < 0 → D' = L)) : |D' - D| ≤ 2 * δ := by
  obtain ⟨p1, p2⟩ := pyth_abs hr h
  obtain ⟨a1, a2⟩ := abs_le.mp hσ
  obtain ⟨k1, k2⟩ := abs_le.mp hK
  obtain ⟨l1, l2⟩ := abs_le.mp hL
  rcases le_or_gt 0 σ with hs | hs <;> rcases le_or_gt 0 σ' with hs' | hs'
  · rw [hD.1 hs, hD'.1 hs']; refine abs_le.mpr ⟨?_, ?_⟩ <;> linarith
  · rw [hD.1 hs, hD'.2 hs']; rw [abs_of_nonneg hs] at p2; refine abs_le.mpr ⟨?_, ?_⟩ <;> linarith
  · rw [hD.2 hs, hD'.1 hs']; rw [abs_of_neg hs] at p2; refine abs_le.mpr ⟨?_, ?_⟩ <;> linarith
  · rw [hD.2 hs, hD'.2 hs']; refine abs_le.mpr ⟨?_, ?_⟩ <;> linarith

/-- The same for a segment. -/
theorem seg_cases {r r2 σ κ l σ' l' K L L2 δ δ' δ1 D D' : ℝ} (hr : 0 ≤ r) (h : r * r = σ * σ + κ * κ) (hr2 : 0 ≤ r2)
    (h2 : r2 * r2 = (σ - l) * (σ - l) + κ * κ) (hl : 0 ≤ l) (hrr : |r - r2| ≤ l) (hσ : |σ' - σ| ≤ δ) (hll : |l' - l| ≤ δ')
    (hl' : 0 ≤ l') (hK : |K - abs κ| ≤ δ1) (hL : |L - r| ≤ δ1) (hL2 : |L2 - r2| ≤ δ1)
    (hD : (σ < 0 → D = r) ∧ (0 ≤ σ → l < σ → D = r2) ∧ (0 ≤ σ → σ ≤ l → D = |κ|))
    (hD' : (σ' < 0 → D' = L) ∧ (0 ≤ σ' → l' < σ' → D' = L2) ∧ (0 ≤ σ' → σ' ≤ l' → D' = K)) :
    |D' - D| ≤ δ1 + δ + δ' := by
  obtain ⟨p1, p2⟩ := pyth_abs hr h
  obtain ⟨q1, q2⟩ := pyth_abs hr2 h2
  obtain ⟨a1, a2⟩ := abs_le.mp hσ
  obtain ⟨b1, b2⟩ := abs_le.mp hll
  obtain ⟨c1, c2⟩ := abs_le.mp hrr
  obtain ⟨k1, k2⟩ := abs_le.mp hK
  obtain ⟨l1, l2⟩ := abs_le.mp hL
  obtain ⟨m1, m2⟩ := abs_le.mp hL2
  have d0 : 0 ≤ δ := (abs_nonneg _).trans hσ
  have d1 : 0 ≤ δ' := (abs_nonneg _).trans hll
  have cs : (σ' < 0 ∧ D' = L) ∨ (0 ≤ σ' ∧ l' < σ' ∧ D' = L2) ∨ (0 ≤ σ' ∧ σ' ≤ l' ∧ D' = K) := by
    rcases lt_or_ge σ' 0 with x | x
    · exact .inl ⟨x, hD'.1 x⟩
    · rcases lt_or_ge l' σ' with y | y
      · exact .inr (.inl ⟨x, y, hD'.2.1 x y⟩)
      · exact .inr (.inr ⟨x, y, hD'.2.2 x y⟩)
  rcases lt_or_ge σ 0 with hs | hs
  · rw [hD.1 hs]; rw [abs_of_neg hs] at p2
    rcases cs with ⟨x, e⟩ | ⟨x, y, e⟩ | ⟨x, y, e⟩ <;> rw [e] <;> refine abs_le.mpr ⟨?_, ?_⟩ <;> linarith
  · rw [abs_of_nonneg hs] at p2
    rcases lt_or_ge l σ with hs2 | hs2
    · rw [hD.2.1 hs hs2]; rw [abs_of_pos (show 0 < σ - l by linarith)] at q2
      rcases cs with ⟨x, e⟩ | ⟨x, y, e⟩ | ⟨x, y, e⟩ <;> rw [e] <;> refine abs_le.mpr ⟨?_, ?_⟩ <;> linarith
    · rw [hD.2.2 hs hs2]; rw [abs_of_nonpos (show σ - l ≤ 0 by linarith)] at q2
      rcases cs with ⟨x, e⟩ | ⟨x, y, e⟩ | ⟨x, y, e⟩ <;> rw [e] <;> refine abs_le.mpr ⟨?_, ?_⟩ <;> linarith

end Planar
