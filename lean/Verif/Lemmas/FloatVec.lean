import Verif.Lemmas.FloatClose
import Verif.Lemmas.FloatDist
import Verif.Lemmas.ExactDist
import Verif.Lemmas.FloatAffine
/- Error bounds for vectors in double precision. -/
set_option linter.unusedSectionVars false
namespace Planar
open Spec

section Abstract

/-- Squares that are computed are compared like the numbers, beyond the rounding error. -/
theorem sq_lt {r t q E u η : ℝ} (hu : 0 < u) (hu' : u ≤ 1 / 1000) (hη : 0 ≤ η) (hr : 0 ≤ r)
    (ht : |t - r * r| ≤ 5 * u * (r * r) + 4 * η) (hE : |E - q * q| ≤ 5 * u * (q * q) + 4 * η)
    (hq : 0 < q) (hηq : 100 * η ≤ u * (q * q)) (h : r ≤ q * (1 - 7 * u)) : t < E := by
  have t2 := (abs_le.mp ht).2
  have e1 := (abs_le.mp hE).1
  have hrr : r * r ≤ (q * (1 - 7 * u)) * (q * (1 - 7 * u)) := mul_self_le_mul_self hr h
  have e : (q * (1 - 7 * u)) * (q * (1 - 7 * u)) = q * q * (1 - 14 * u + 49 * (u * u)) := by ring
  rw [e] at hrr
  have qq : 0 < q * q := mul_pos hq hq
  generalize q * q = Q at *
  generalize r * r = R at *
  have uu : u * u ≤ 1 / 1000 * u := mul_le_mul_of_nonneg_right hu' hu.le
  have h1 : Q * (1 - 14 * u + 49 * (u * u)) ≤ Q * (1 - 139 / 10 * u) := mul_le_mul_of_nonneg_left (by linarith) qq.le
  have uQ : 0 < u * Q := mul_pos hu qq
  have h2 : u * R ≤ u * Q := by
    refine mul_le_mul_of_nonneg_left (hrr.trans (h1.trans ?_)) hu.le
    have : Q * (1 - 139 / 10 * u) = Q - 139 / 10 * (u * Q) := by ring
    linarith
  have h3 : Q * (1 - 139 / 10 * u) = Q - 139 / 10 * (u * Q) := by ring
  linarith

/-- The squared length of a vector whose coordinates have a relative error. -/
theorem sq_rel {x y x' y' t u η : ℝ} (hu : 0 ≤ u) (hu' : u ≤ 1 / 1000) (hη : 0 ≤ η) (hx : |x' - x| ≤ u * |x|)
    (hy : |y' - y| ≤ u * |y|) (ht : |t - (x' * x' + y' * y')| ≤ (2 * u + u * u) * (x' * x' + y' * y') + (3 + 2 * u) * η) :
    |t - (x * x + y * y)| ≤ 5 * u * (x * x + y * y) + 4 * η := by
  have one : ∀ x x' : ℝ, |x' - x| ≤ u * |x| → |x' * x' - x * x| ≤ 201 / 100 * (u * (x * x)) := by
    intro x x' h
    have e : x' * x' - x * x = (x' - x) * (x' - x) + 2 * x * (x' - x) := by ring
    have h1 := mul_self_le_mul_self (abs_nonneg _) h
    rw [abs_mul_abs_self] at h1
    have ex : u * |x| * (u * |x|) = u * (u * (x * x)) := by rw [← abs_mul_abs_self x]; ring
    rw [ex] at h1
    have h2 : |2 * x * (x' - x)| ≤ 2 * (u * (x * x)) := by
      rw [abs_mul, abs_mul, abs_two]
      calc 2 * |x| * |x' - x| ≤ 2 * |x| * (u * |x|) := mul_le_mul_of_nonneg_left h (by positivity)
        _ = 2 * (u * (|x| * |x|)) := by ring
        _ = _ := by rw [abs_mul_abs_self]
    have p : 0 ≤ u * (x * x) := mul_nonneg hu (mul_self_nonneg _)
    have h3 : u * (u * (x * x)) ≤ 1 / 1000 * (u * (x * x)) := mul_le_mul_of_nonneg_right hu' p
    rw [e]
    refine (abs_add_le _ _).trans ?_
    rw [abs_mul_self]
    linarith
  have hX := one x x' hx
  have hY := one y y' hy
  have x0 := mul_self_nonneg x
  have y0 := mul_self_nonneg y
  have D : |x' * x' + y' * y' - (x * x + y * y)| ≤ 201 / 100 * (u * (x * x + y * y)) := by
    have : x' * x' + y' * y' - (x * x + y * y) = (x' * x' - x * x) + (y' * y' - y * y) := by ring
    rw [this]; refine (abs_add_le _ _).trans ?_
    have : u * (x * x + y * y) = u * (x * x) + u * (y * y) := by ring
    rw [this]
    linarith
  have tri := abs_sub_le t (x' * x' + y' * y') (x * x + y * y)
  have s0 : 0 ≤ x * x + y * y := by linarith
  generalize x * x + y * y = S at *
  generalize x' * x' + y' * y' = S' at *
  have d2 := (abs_le.mp D).2
  have uS : 0 ≤ u * S := mul_nonneg hu s0
  have h1 : u * S ≤ 1 / 1000 * S := mul_le_mul_of_nonneg_right hu' s0
  have h2 : S' ≤ 1003 / 1000 * S := by linarith
  have h3 : (2 * u + u * u) ≤ 2001 / 1000 * u := by nlinarith
  have h4 : (2 * u + u * u) * S' ≤ 2001 / 1000 * u * (1003 / 1000 * S) :=
    (mul_le_mul_of_nonneg_left h2 (by positivity)).trans (mul_le_mul_of_nonneg_right h3 (by linarith))
  have h5 : (3 + 2 * u) * η ≤ 4 * η := mul_le_mul_of_nonneg_right (by linarith) hη
  linarith

/-- A quotient of a sum of products by a squared length. -/
theorem ratioE {D L d l A u η : ℝ} (hu : 0 ≤ u) (hu' : u ≤ 1 / 1000) (hη : 0 ≤ η) (hL : 0 < L) (hA : |D| ≤ A)
    (hd : |d - D| ≤ 302 / 100 * u * A + 8 * η) (hl : |l - L| ≤ 21 / 10 * u * L) :
    0 < l ∧ |d / l| ≤ 101 / 100 * (A / L) + 9 * (η / L) ∧
      ∀ s, |s - d / l| ≤ u * |d / l| + η → |s - D / L| ≤ 31 / 5 * u * (A / L) + 9 * (η / L) + η := by
  have A0 := (abs_nonneg _).trans hA
  have uL : u * L ≤ 1 / 1000 * L := mul_le_mul_of_nonneg_right hu' hL.le
  obtain ⟨l1, l2⟩ := abs_le.mp hl
  have hl9 : 997 / 1000 * L ≤ l := by linarith
  have l0 : 0 < l := by linarith
  have inv : ∀ z : ℝ, 0 ≤ z → z / l ≤ 1004 / 1000 * (z / L) := by
    intro z hz
    have : z / l ≤ z / (997 / 1000 * L) := div_le_div_of_nonneg_left hz (by positivity) hl9
    have e : z / (997 / 1000 * L) = 1000 / 997 * (z / L) := by field_simp
    rw [e] at this
    have p : 0 ≤ z / L := by positivity
    linarith
  have e : d / l - D / L = (d - D) / l + D * (L - l) / (l * L) := by field_simp; ring
  have h1 : |(d - D) / l| ≤ (302 / 100 * u * A + 8 * η) / l := by
    rw [abs_div, abs_of_pos l0]; gcongr
  have h2 : |D * (L - l) / (l * L)| ≤ 21 / 10 * u * A / l := by
    rw [abs_div, abs_of_pos (mul_pos l0 hL), abs_mul, abs_sub_comm]
    rw [div_le_div_iff₀ (mul_pos l0 hL) l0]
    calc |D| * |l - L| * l ≤ A * (21 / 10 * u * L) * l := by gcongr
      _ = _ := by ring
  have h3 : |d / l - D / L| ≤ 1004 / 1000 * ((512 / 100 * u * A + 8 * η) / L) := by
    rw [e]
    refine (abs_add_le _ _).trans ((add_le_add h1 h2).trans ?_)
    rw [← add_div]
    have := inv (512 / 100 * u * A + 8 * η) (by positivity)
    refine le_trans (le_of_eq ?_) this
    ring
  have e2 : (512 / 100 * u * A + 8 * η) / L = 512 / 100 * (u * (A / L)) + 8 * (η / L) := by ring
  rw [e2] at h3
  have W0 : 0 ≤ A / L := by positivity
  have E0 : 0 ≤ η / L := by positivity
  have hDL : |D / L| ≤ A / L := by rw [abs_div, abs_of_pos hL]; gcongr
  generalize A / L = W at *
  generalize η / L = H at *
  have uW : u * W ≤ 1 / 1000 * W := mul_le_mul_of_nonneg_right hu' W0
  have uW0 := mul_nonneg hu W0
  have t1 := abs_sub_abs_le_abs_sub (d / l) (D / L)
  have hb : |d / l| ≤ 101 / 100 * W + 9 * H := by linarith
  refine ⟨l0, hb, fun s hs => ?_⟩
  have t2 := abs_sub_le s (d / l) (D / L)
  have h4 : u * |d / l| ≤ u * (1006 / 1000 * W + 81 / 10 * H) := mul_le_mul_of_nonneg_left (by linarith) hu
  have uH : u * H ≤ 1 / 1000 * H := mul_le_mul_of_nonneg_right hu' E0
  linarith

/-- The product with such a quotient. -/
theorem ratio_mulE {x S s p W H u η Q : ℝ} (hu : 0 ≤ u) (hu' : u ≤ 1 / 1000) (hS : |S| ≤ W)
    (hs : |s - S| ≤ 31 / 5 * u * W + 9 * H + η) (hp : |p - x * s| ≤ u * |x * s| + η) (hW : |x| * W ≤ Q) (h0 : 0 ≤ W)
    (hH : 0 ≤ H) (hη : 0 ≤ η) :
    |p - x * S| ≤ 73 / 10 * u * Q + 10 * (|x| * H) + 2 * (|x| * η) + η := by
  have x0 := abs_nonneg x
  have d : |x * s - x * S| ≤ 31 / 5 * (u * (|x| * W)) + 9 * (|x| * H) + |x| * η := by
    rw [← mul_sub, abs_mul]
    calc |x| * |s - S| ≤ |x| * (31 / 5 * u * W + 9 * H + η) := mul_le_mul_of_nonneg_left hs x0
      _ = _ := by ring
  have hxS : |x * S| ≤ |x| * W := by rw [abs_mul]; exact mul_le_mul_of_nonneg_left hS x0
  have t1 := abs_sub_abs_le_abs_sub (x * s) (x * S)
  have t2 := abs_sub_le p (x * s) (x * S)
  have w0 : 0 ≤ |x| * W := by positivity
  have H0 : 0 ≤ |x| * H := by positivity
  have e0 : 0 ≤ |x| * η := by positivity
  generalize |x| * W = w at *
  generalize |x| * H = h at *
  generalize |x| * η = e at *
  have uw : u * w ≤ 1 / 1000 * w := mul_le_mul_of_nonneg_right hu' w0
  have uQ : u * w ≤ u * Q := mul_le_mul_of_nonneg_left hW hu
  have a1 : u * |x * s| ≤ u * (1007 / 1000 * w + 9 * h + e) := mul_le_mul_of_nonneg_left (by linarith) hu
  have uh : u * h ≤ 1 / 1000 * h := mul_le_mul_of_nonneg_right hu' H0
  have ue : u * e ≤ 1 / 1000 * e := mul_le_mul_of_nonneg_right hu' e0
  have uw0 := mul_nonneg hu w0
  linarith

/-- Cauchy-Schwarz. -/
theorem dot_le_norms (x y a b : ℝ) : |x * a| + |y * b| ≤ √(x * x + y * y) * √(a * a + b * b) := by
  rw [← Real.sqrt_mul (add_nonneg (mul_self_nonneg _) (mul_self_nonneg _))]
  apply Real.le_sqrt_of_sq_le
  rw [abs_mul, abs_mul]
  have e1 : |x| * |x| = x * x := abs_mul_abs_self x
  have e2 : |y| * |y| = y * y := abs_mul_abs_self y
  have e3 : |a| * |a| = a * a := abs_mul_abs_self a
  have e4 : |b| * |b| = b * b := abs_mul_abs_self b
  rw [← e1, ← e2, ← e3, ← e4]
  nlinarith [sq_nonneg (|x| * |b| - |y| * |a|)]

/-- The length of a vector whose coordinates have a relative error. -/
theorem norm_rel {x y a b u : ℝ} (hu : 0 ≤ u) (hx : |a - x| ≤ u * |x|) (hy : |b - y| ≤ u * |y|) :
    |√(a * a + b * b) - √(x * x + y * y)| ≤ u * √(x * x + y * y) := by
  have n1 := gap_triangle ⟨a, b⟩ ⟨x, y⟩ ⟨0, 0⟩
  have n2 := gap_triangle ⟨x, y⟩ ⟨a, b⟩ ⟨0, 0⟩
  simp only [gap, vlen, sub_zero] at n1 n2
  have d1 : √((a - x) * (a - x) + (b - y) * (b - y)) ≤ u * √(x * x + y * y) := by
    rw [Real.sqrt_le_left (mul_nonneg hu (Real.sqrt_nonneg _)), mul_pow, Real.sq_sqrt (add_nonneg (mul_self_nonneg _) (mul_self_nonneg _))]
    have k1 := mul_self_le_mul_self (abs_nonneg _) hx
    have k2 := mul_self_le_mul_self (abs_nonneg _) hy
    rw [abs_mul_abs_self] at k1 k2
    have e1 : u * |x| * (u * |x|) = u ^ 2 * (x * x) := by rw [← abs_mul_abs_self x]; ring
    have e2 : u * |y| * (u * |y|) = u ^ 2 * (y * y) := by rw [← abs_mul_abs_self y]; ring
    rw [e1] at k1; rw [e2] at k2
    linarith
  have d2 : (x - a) * (x - a) + (y - b) * (y - b) = (a - x) * (a - x) + (b - y) * (b - y) := by ring
  rw [d2] at n2
  exact abs_le.mpr ⟨by linarith, by linarith⟩

end Abstract

/-- Powers of two times the smallest error. -/
theorem ηR_mul_le {z : ℝ} {k : ℕ} (hk : k ≤ 1075) (hz : z ≤ 2 ^ k) : ηR * z ≤ 1 / 2 ^ (1075 - k) := by
  have e : ηR = 1 / 2 ^ (1075 - k) * (1 / 2 ^ k) := by
    rw [← inv_pow_split, Nat.sub_add_cancel hk]; rfl
  rw [e, mul_assoc]
  have p := two_pow_pos k
  have q : (0 : ℝ) ≤ 1 / 2 ^ (1075 - k) := by positivity
  refine mul_le_of_le_one_right q ?_
  rw [one_div_mul_eq_div]
  exact (div_le_one p).mpr hz

/-- The computed squared length. -/
theorem length2_near {v : Vec2 Double} (hx : |v.x.real| ≤ 2 ^ 510) (hy : |v.y.real| ≤ 2 ^ 510) :
    |v.length2.real - vlen (toReal v) * vlen (toReal v)| ≤ 5 * uR * (vlen (toReal v) * vlen (toReal v)) + 4 * ηR := by
  obtain ⟨a, b, ha, hb, ht, -, -⟩ := length2_parts v hx hy
  have h := sq_err uR_pos.le ηR_pos ha hb ht
  rw [vlen_def, Real.mul_self_sqrt (add_nonneg (mul_self_nonneg _) (mul_self_nonneg _))]
  refine sq_rel uR_pos.le uR_small ηR_pos (x := v.x.real) (y := v.y.real) ?_ ?_ h
  · rw [sub_self, abs_zero]; exact mul_nonneg uR_pos.le (abs_nonneg _)
  · rw [sub_self, abs_zero]; exact mul_nonneg uR_pos.le (abs_nonneg _)

/-- The computed squared distance. -/
theorem gap2_near {v w : Vec2 Double} {n : ℕ} (hn : n ≤ 508) (hv : Within (2 ^ n) v) (hw : Within (2 ^ n) w) :
    |((v.x - w.x) * (v.x - w.x) + (v.y - w.y) * (v.y - w.y)).real - gap (toReal v) (toReal w) * gap (toReal v) (toReal w)| ≤
      5 * uR * (gap (toReal v) (toReal w) * gap (toReal v) (toReal w)) + 4 * ηR := by
  have one : ∀ a b : Double, |a.real| ≤ 2 ^ n → |b.real| ≤ 2 ^ n →
      |(a - b).real - (a.real - b.real)| ≤ uR * |a.real - b.real| ∧ |(a - b).real| ≤ 2 ^ 510 := by
    intro a b ha hb
    have h1 : |a.real - b.real| ≤ 2 ^ (n + 1) := by
      rw [sub_eq_add_neg]; exact add_pow ha (by rw [abs_neg]; exact hb)
    have h2 := sub_ok a b (h1.trans (pow_le_real (by omega)))
    have h3 := slack_pow (n := n + 1) (h2.trans (by have := ηR_pos; linarith)) h1
    exact ⟨h2, h3.trans (pow_le_real (by omega))⟩
  obtain ⟨x1, x2⟩ := one _ _ hv.1 hw.1
  obtain ⟨y1, y2⟩ := one _ _ hv.2 hw.2
  obtain ⟨a, b, ha, hb, ht, -, -⟩ := length2_parts ⟨v.x - w.x, v.y - w.y⟩ x2 y2
  have h := sq_err uR_pos.le ηR_pos ha hb ht
  have e : gap (toReal v) (toReal w) * gap (toReal v) (toReal w) =
      (v.x.real - w.x.real) * (v.x.real - w.x.real) + (v.y.real - w.y.real) * (v.y.real - w.y.real) :=
    Real.mul_self_sqrt (add_nonneg (mul_self_nonneg _) (mul_self_nonneg _))
  rw [e]
  exact sq_rel uR_pos.le uR_small ηR_pos x1 y1 h

/-- A square, computed. -/
theorem square_near {a : Double} (h : |a.real| ≤ 2 ^ 510) :
    |(a * a).real - a.real * a.real| ≤ 5 * uR * (a.real * a.real) + 4 * ηR := by
  have := mul_ok a a ((mul_pow_le h h).trans (pow_le_real (by norm_num)))
  rw [abs_of_nonneg (mul_self_nonneg a.real)] at this
  have p := mul_nonneg uR_pos.le (mul_self_nonneg a.real)
  have := ηR_pos
  linarith

/-- The margin `2 ^ -50`, from both sides. -/
theorem margin_low {r q : ℝ} (hq : 0 ≤ q) (h : r ≤ q * (1 - 1 / 2 ^ 50)) : r ≤ q * (1 - 7 * uR) := by
  rw [u50] at h
  have := mul_nonneg uR_pos.le hq
  linarith

theorem margin_high {r q : ℝ} (hq : 0 ≤ q) (h : q * (1 + 1 / 2 ^ 50) ≤ r) : q ≤ r * (1 - 7 * uR) := by
  rw [u50] at h
  have hu := uR_pos
  have hu' := uR_small
  have h1 : q * (1 + 8 * uR) * (1 - 7 * uR) ≤ r * (1 - 7 * uR) := mul_le_mul_of_nonneg_right h (by linarith)
  have h2 : 0 ≤ q * uR := mul_nonneg hq hu.le
  have h3 : q * uR * uR ≤ q * uR * (1 / 1000) := mul_le_mul_of_nonneg_left hu' h2
  have e : q * (1 + 8 * uR) * (1 - 7 * uR) = q + q * uR - 56 * (q * uR * uR) := by ring
  linarith

/-- A product with a number that has a relative error. -/
theorem scaleE {x S s p u η : ℝ} (hu : 0 ≤ u) (hu' : u ≤ 1 / 1000) (hη : 0 ≤ η) (hs : |s - S| ≤ 5 * u * |S| + η)
    (hp : |p - x * s| ≤ u * |x * s| + η) : |p - x * S| ≤ 61 / 10 * u * |x * S| + 11 / 10 * (|x| * η) + η := by
  have x0 := abs_nonneg x
  have d : |x * s - x * S| ≤ 5 * (u * |x * S|) + |x| * η := by
    rw [← mul_sub, abs_mul, abs_mul]
    calc |x| * |s - S| ≤ |x| * (5 * u * |S| + η) := mul_le_mul_of_nonneg_left hs x0
      _ = _ := by ring
  have t1 := abs_sub_abs_le_abs_sub (x * s) (x * S)
  have t2 := abs_sub_le p (x * s) (x * S)
  have w0 := abs_nonneg (x * S)
  have e0 : 0 ≤ |x| * η := by positivity
  generalize |x * S| = w at *
  generalize |x| * η = e at *
  have uw : u * w ≤ 1 / 1000 * w := mul_le_mul_of_nonneg_right hu' w0
  have a1 : u * |x * s| ≤ u * (1005 / 1000 * w + e) := mul_le_mul_of_nonneg_left (by linarith) hu
  have ue : u * e ≤ 1 / 1000 * e := mul_le_mul_of_nonneg_right hu' e0
  have uw0 := mul_nonneg hu w0
  linarith

/-- The length of what is close to a vector in each component. -/
theorem vlen_close {p q : Vec2 ℝ} {a b : ℝ} (hx : |p.x - q.x| ≤ a) (hy : |p.y - q.y| ≤ b) : |vlen p - vlen q| ≤ a + b := by
  have z : ∀ r : Vec2 ℝ, gap r ⟨0, 0⟩ = vlen r := by intro r; simp [gap]
  have g : ∀ p q : Vec2 ℝ, gap p q ≤ |p.x - q.x| + |p.y - q.y| := by
    intro p q
    refine Real.sqrt_le_iff.mpr ⟨add_nonneg (abs_nonneg _) (abs_nonneg _), ?_⟩
    show (p.x - q.x) * (p.x - q.x) + (p.y - q.y) * (p.y - q.y) ≤ _
    have e1 := abs_mul_abs_self (p.x - q.x)
    have e2 := abs_mul_abs_self (p.y - q.y)
    nlinarith [mul_nonneg (abs_nonneg (p.x - q.x)) (abs_nonneg (p.y - q.y))]
  have h1 := gap_triangle p q ⟨0, 0⟩
  have h2 := gap_triangle q p ⟨0, 0⟩
  rw [z, z] at h1 h2
  have g1 := g p q
  have g2 := g q p
  rw [abs_sub_comm q.x, abs_sub_comm q.y] at g2
  exact abs_le.mpr ⟨by linarith, by linarith⟩

/-- What a computed squared length above EPSILON squared says about the vector. -/
theorem long_of_sq {eps : Double} {w : Vec2 Double} (he : 1 / 2 ^ 200 ≤ eps.real) (he' : eps.real ≤ 2 ^ 500)
    (hw : Within (2 ^ 200) w) (h : eps * eps < w.length2) :
    1 / 2 ^ 201 ≤ vlen (toReal w) ∧
    |w.length2.real - vlen (toReal w) * vlen (toReal w)| ≤ 21 / 10 * uR * (vlen (toReal w) * vlen (toReal w)) := by
  have he5 : 1 / 2 ^ 500 ≤ eps.real := (inv_pow_le (by norm_num)).trans he
  obtain ⟨ep, heps⟩ := eps_small he5
  have hu := uR_pos
  have hu' := uR_small
  have hη0 := ηR_pos
  obtain ⟨a, b, ha, hb, ht, -, -⟩ := length2_parts w (hw.1.trans (pow_le_real (by norm_num)))
    (hw.2.trans (pow_le_real (by norm_num)))
  have hq := sq_err hu.le hη0 ha hb ht
  have hE := mul_ok eps eps ((mul_pow_le (m := 500) (n := 500) (by rw [abs_of_pos ep]; exact he') (by rw [abs_of_pos ep]; exact he')).trans
    (pow_le_real (by norm_num)))
  rw [abs_of_nonneg (mul_self_nonneg eps.real)] at hE
  have hlt := real_lt.mpr h
  have e : vlen (toReal w) * vlen (toReal w) = w.x.real * w.x.real + w.y.real * w.y.real :=
    Real.mul_self_sqrt (add_nonneg (mul_self_nonneg _) (mul_self_nonneg _))
  rw [← e] at hq
  have r0 : 0 ≤ vlen (toReal w) := Real.sqrt_nonneg _
  clear ha hb ht he'
  generalize vlen (toReal w) = r at *
  have hrr := mul_self_nonneg r
  have hee := mul_self_nonneg eps.real
  have q2 := (abs_le.mp hq).2
  have e1 := (abs_le.mp hE).1
  have h1 : uR * (eps.real * eps.real) ≤ 1 / 1000 * (eps.real * eps.real) := mul_le_mul_of_nonneg_right hu' hee
  have h2 : (2 * uR + uR * uR) ≤ 2001 / 1000 * uR := by nlinarith
  have h3 : (2 * uR + uR * uR) * (r * r) ≤ 2001 / 1000 * uR * (r * r) := mul_le_mul_of_nonneg_right h2 hrr
  have h4 : (3 + 2 * uR) * ηR ≤ 4 * ηR := mul_le_mul_of_nonneg_right (by linarith) hη0
  have h5 : uR * (r * r) ≤ 1 / 1000 * (r * r) := mul_le_mul_of_nonneg_right hu' hrr
  have h6 : 9 / 10 * (eps.real * eps.real) ≤ r * r := by linarith
  have h7 : uR * (9 / 10 * (eps.real * eps.real)) ≤ uR * (r * r) := mul_le_mul_of_nonneg_left h6 hu.le
  refine ⟨?_, hq.trans (by linarith)⟩
  have h8 : eps.real / 2 ≤ r := by
    by_contra hc
    have hc := not_le.mp hc
    have := mul_self_lt_mul_self r0 hc
    nlinarith
  have e2 : 1 / (2 : ℝ) ^ 201 = 1 / 2 ^ 200 / 2 := by
    have key : ∀ n : ℕ, 1 / (2 : ℝ) ^ (n + 1) = 1 / 2 ^ n / 2 := by intro n; rw [inv_pow_split]; ring
    exact key 200
  rw [e2]
  linarith

/-- The vector `w` times a quotient by its squared length. -/
theorem along_core {eps d : Double} {w : Vec2 Double} {D q : ℝ} (he : 1 / 2 ^ 200 ≤ eps.real) (he' : eps.real ≤ 2 ^ 500)
    (hw : Within (2 ^ 200) w) (h : eps * eps < w.length2) (q0 : 0 ≤ q) (hq : q ≤ 2 ^ 203) (hA : |D| ≤ vlen (toReal w) * q)
    (hd : |d.real - D| ≤ 302 / 100 * uR * (vlen (toReal w) * q) + 8 * ηR) :
    (w.length2 == 0) = false ∧ ∀ x : Double, x = w.x ∨ x = w.y →
      |(x * (d / w.length2)).real - x.real * (D / (vlen (toReal w) * vlen (toReal w)))| ≤ 73 / 10 * uR * q + 1 / 2 ^ 810 := by
  obtain ⟨hr1, hl⟩ := long_of_sq he he' hw h
  have hu := uR_pos
  have hu' := uR_small
  have hη0 := ηR_pos
  have hxr : |w.x.real| ≤ vlen (toReal w) := abs_le_norm _ _
  have hyr : |w.y.real| ≤ vlen (toReal w) := by rw [vlen, add_comm]; exact abs_le_norm _ _
  have r0 : 0 < vlen (toReal w) := lt_of_lt_of_le (by positivity) hr1
  generalize vlen (toReal w) = r at *
  have hL : 0 < r * r := mul_pos r0 r0
  obtain ⟨l0, hb, hs⟩ := ratioE hu.le hu' hη0 hL hA hd hl
  have hW : r * q / (r * r) = q / r := by field_simp
  rw [hW] at hb hs
  have ri : 1 / r ≤ 2 ^ 201 := by
    rw [div_le_iff₀ r0]
    calc (1 : ℝ) = 2 ^ 201 * (1 / 2 ^ 201) := by
          have key : ∀ n : ℕ, (1 : ℝ) = 2 ^ n * (1 / 2 ^ n) := by intro n; have := two_pow_pos n; field_simp
          exact key 201
      _ ≤ _ := mul_le_mul_of_nonneg_left hr1 (by positivity)
  have W0 : 0 ≤ q / r := by positivity
  have H0 : 0 ≤ ηR / (r * r) := div_nonneg hη0 hL.le
  have hWb : q / r ≤ 2 ^ 404 := by
    calc q / r = q * (1 / r) := by ring
      _ ≤ 2 ^ 203 * 2 ^ 201 := mul_le_mul hq ri (by positivity) (by positivity)
      _ = _ := by rw [← pow_add]
  have hHb : ηR / (r * r) ≤ 1 := by
    have h1 : 1 / (r * r) ≤ 2 ^ 402 := by
      calc 1 / (r * r) = 1 / r * (1 / r) := by field_simp
        _ ≤ 2 ^ 201 * 2 ^ 201 := mul_le_mul ri ri (by positivity) (by positivity)
        _ = _ := by rw [← pow_add]
    calc ηR / (r * r) = ηR * (1 / (r * r)) := by ring
      _ ≤ 1 / 2 ^ (1075 - 402) := ηR_mul_le (by norm_num) h1
      _ ≤ 1 / 2 ^ 0 := inv_pow_le (by norm_num)
      _ = 1 := by norm_num
  have hdl : |d.real / w.length2.real| ≤ 2 ^ 406 := by
    have e : (2 : ℝ) ^ 406 = 4 * 2 ^ 404 := by rw [show (406 : ℕ) = 2 + 404 by norm_num, pow_add]; norm_num
    have h1 : (16 : ℝ) ≤ 2 ^ 404 := le_trans (by norm_num) (pow_le_real (show 4 ≤ 404 by norm_num))
    rw [e]
    clear e hq hr1 ri he he' hw
    generalize (2 : ℝ) ^ 404 = P at *
    linarith
  have hdiv := div_ok d w.length2 (hdl.trans (pow_le_real (by norm_num)))
  have hs1 := hs _ hdiv
  have hsb : |(d / w.length2).real| ≤ 2 ^ 407 := slack_pow hdiv hdl
  refine ⟨?_, fun x hx => ?_⟩
  · rw [beq_eq_false_iff_ne]
    intro hc
    rw [hc, real_zero] at l0
    exact lt_irrefl _ l0
  · have hxr' : |x.real| ≤ r := by rcases hx with rfl | rfl <;> assumption
    have hx2 : |x.real| ≤ 2 ^ 200 := by
      rcases hx with rfl | rfl
      · exact hw.1
      · exact hw.2
    have hp := mul_ok x (d / w.length2) ((mul_pow_le hx2 hsb).trans (pow_le_real (by norm_num)))
    have hSW : |D / (r * r)| ≤ q / r := by
      rw [abs_div, abs_of_pos hL, ← hW]; gcongr
    have hWQ : |x.real| * (q / r) ≤ q := by
      calc |x.real| * (q / r) ≤ r * (q / r) := mul_le_mul_of_nonneg_right hxr' W0
        _ = q := by field_simp
    have k := ratio_mulE hu.le hu' hSW hs1 hp hWQ W0 H0 hη0
    have a1 : |x.real| * (ηR / (r * r)) ≤ 1 / 2 ^ (1075 - 203) := by
      have h1 : |x.real| / (r * r) ≤ 2 ^ 203 := by
        calc |x.real| / (r * r) ≤ r / (r * r) := by gcongr
          _ = 1 / r := by field_simp
          _ ≤ _ := ri.trans (pow_le_real (by norm_num))
      calc |x.real| * (ηR / (r * r)) = ηR * (|x.real| / (r * r)) := by ring
        _ ≤ _ := ηR_mul_le (by norm_num) h1
    have a2 : ηR * |x.real| ≤ 1 / 2 ^ (1075 - 203) := ηR_mul_le (by norm_num) (hx2.trans (pow_le_real (by norm_num)))
    have a3 : ηR * 1 ≤ 1 / 2 ^ (1075 - 203) := ηR_mul_le (by norm_num) (one_le_pow₀ (by norm_num))
    have e : 1 / (2 : ℝ) ^ 810 = 2 ^ 62 * (1 / 2 ^ (1075 - 203)) := by
      rw [show (1075 - 203 : ℕ) = 62 + 810 by norm_num, inv_pow_split (m := 62)]
      have key : ∀ z : ℝ, z = 2 ^ 62 * (1 / 2 ^ 62 * z) := by
        intro z
        rw [← mul_assoc, show (2 : ℝ) ^ 62 * (1 / 2 ^ 62) = 1 by norm_num, one_mul]
      exact key _
    rw [e]
    have p : (0 : ℝ) < 1 / 2 ^ (1075 - 203) := by positivity
    rw [mul_comm ηR] at a2
    generalize 1 / (2 : ℝ) ^ (1075 - 203) = z at *
    have h62 : 13 * z ≤ 2 ^ 62 * z := mul_le_mul_of_nonneg_right (by norm_num) p.le
    refine k.trans ?_
    refine le_trans ?_ (add_le_add_right h62 _)
    clear e hq hr1 ri he he' hw h62 hWb hdl hsb hx2
    linarith

/-- The decision of `project` and `reflect`: is the computed squared length above the computed EPSILON squared? -/
theorem sq_decision {eps : Double} (he : 1 / 2 ^ 200 ≤ eps.real) (he' : eps.real ≤ 2 ^ 500) {v : Vec2 Double}
    (hv : Within (2 ^ 200) v) :
    (vlen (toReal v) ≤ eps.real * (1 - 1 / 2 ^ 50) → v.length2 < eps * eps) ∧
    (eps.real * (1 + 1 / 2 ^ 50) ≤ vlen (toReal v) → eps * eps < v.length2) := by
  obtain ⟨e0, hη⟩ := eps_small ((inv_pow_le (show 200 ≤ 500 by norm_num)).trans he)
  have hu := uR_pos
  have hE := square_near (a := eps) (by rw [abs_of_pos e0]; exact he'.trans (pow_le_real (by norm_num)))
  have hv2 := length2_near (hv.1.trans (pow_le_real (show 200 ≤ 510 by norm_num))) (hv.2.trans (pow_le_real (by norm_num)))
  have v0 : 0 ≤ vlen (toReal v) := Real.sqrt_nonneg _
  refine ⟨fun h => real_lt.mp (sq_lt hu uR_small ηR_pos v0 hv2 hE e0 hη (margin_low e0.le h)), fun h => ?_⟩
  have hr : eps.real ≤ vlen (toReal v) := by
    have := mul_pos hu e0
    rw [u50] at h
    clear he' he
    linarith
  have hrr := mul_le_mul_of_nonneg_left (mul_self_le_mul_self e0.le hr) hu.le
  exact real_lt.mp (sq_lt hu uR_small ηR_pos e0.le hE hv2 (e0.trans_le hr) (hη.trans hrr) (margin_high e0.le h))

/-- A length of at most two hundred bits. -/
theorem vlen_200 {v : Vec2 Double} (hv : Within (2 ^ 200) v) : 0 ≤ vlen (toReal v) ∧ vlen (toReal v) ≤ 2 ^ 201 := by
  refine ⟨Real.sqrt_nonneg _, ?_⟩
  have := norm_within hv.1 hv.2
  rw [vlen_def]
  refine this.trans ?_
  calc 3 / 2 * (2 : ℝ) ^ 200 ≤ 2 ^ 1 * 2 ^ 200 := mul_le_mul_of_nonneg_right (by norm_num) (by positivity)
    _ = 2 ^ 201 := by rw [← pow_add]

/-- The dot product in terms of the lengths. -/
theorem dot_vlen {v w : Vec2 Double} (hv : Within (2 ^ 200) v) (hw : Within (2 ^ 200) w) :
    |v.x.real * w.x.real + v.y.real * w.y.real| ≤ vlen (toReal v) * vlen (toReal w) ∧
    |(v.x * w.x + v.y * w.y).real - (v.x.real * w.x.real + v.y.real * w.y.real)| ≤
      201 / 100 * uR * (vlen (toReal v) * vlen (toReal w)) + 301 / 100 * ηR := by
  have cs : |v.x.real * w.x.real| + |v.y.real * w.y.real| ≤ vlen (toReal v) * vlen (toReal w) := dot_le_norms _ _ _ _
  refine ⟨(abs_add_le _ _).trans cs, ?_⟩
  have k := (dot_in ((mul_pow_le hv.1 hw.1).trans (pow_le_real (show 200 + 200 ≤ 1000 by norm_num)))
    ((mul_pow_le hv.2 hw.2).trans (pow_le_real (by norm_num)))).1
  have := mul_le_mul_of_nonneg_left cs (mul_nonneg (show (0 : ℝ) ≤ 201 / 100 by norm_num) uR_pos.le)
  clear hv hw
  linarith

theorem real_two : ((1 + 1 : Double)).real = 2 := by
  have : (1 + 1 : Double).val = 2 := by decide +kernel
  rw [Fl.real, this]; norm_num

variable [PyMath Double] [SqrtOk]

/-- `scaled_to`: the null vector for what is not longer than EPSILON, what it should be up to rounding otherwise. -/
theorem scaledTo_cases (eps : Double) (v : Vec2 Double) (L : Double) (he : 1 / 2 ^ 500 ≤ eps.real) (hv : Within (2 ^ 500) v)
    (hL : |L.real| ≤ 2 ^ 500) :
    (v.scaledTo eps L = .ok Vec2.null ∧ v.length ≤ eps) ∨
    (eps < v.length ∧ 0 < vlen (toReal v) ∧ |v.length.real - √(v.x.real * v.x.real + v.y.real * v.y.real)| ≤
        31 / 10 * uR * √(v.x.real * v.x.real + v.y.real * v.y.real) ∧
      ∃ n, v.scaledTo eps L = .ok n ∧
        |n.x.real - v.x.real * (L.real / vlen (toReal v))| ≤
          61 / 10 * uR * |v.x.real * (L.real / vlen (toReal v))| + 11 / 10 * (|v.x.real| * ηR) + ηR ∧
        |n.y.real - v.y.real * (L.real / vlen (toReal v))| ≤
          61 / 10 * uR * |v.y.real * (L.real / vlen (toReal v))| + 11 / 10 * (|v.y.real| * ηR) + ηR) := by
  obtain ⟨ep, heps⟩ := eps_small he
  have hu := uR_pos
  have hu' := uR_small
  by_cases hl : eps < v.length
  · right
    have e0 : (0 : Double) < v.length := lt_trans (real_lt.mp (by rw [real_zero]; exact ep)) hl
    have hne : (v.length == 0) = false := by
      simp only [beq_eq_false_iff_ne]; exact e0.ne'
    have hn : v.scaledTo eps L = .ok ⟨v.x * (L / v.length), v.y * (L / v.length)⟩ := by
      simp only [Vec2.scaledTo, gt_iff_lt, hl, if_true, pydiv, hne, Bool.false_eq_true, if_false, bind, Except.bind,
        pure, Except.pure]
    obtain ⟨a, b, ha, hb, ht, ht0, htf⟩ := length2_parts v (hv.1.trans (pow_le_real (by norm_num)))
      (hv.2.trans (pow_le_real (by norm_num)))
    have hll := length_parts ht0 htf
    have hs := len_low hu.le hu' ηR_pos ha hb ht ht0 hll ep heps (real_lt.mpr hl)
    have hle := len_err hu.le hu' ηR_pos ha hb ht hll hs
    have hr : 0 < √(v.x.real * v.x.real + v.y.real * v.y.real) := by
      refine Real.sqrt_pos.mpr ?_
      have hη : 0 < ηR := by unfold ηR; positivity
      have hp : 0 < uR * (v.x.real * v.x.real + v.y.real * v.y.real) := by linarith
      exact (pos_iff_pos_of_mul_pos hp).mp hu
    refine ⟨hl, hr, hle, _, hn, ?_⟩
    rw [vlen_def]
    have hx := abs_le_norm v.x.real v.y.real
    have hy := abs_le_norm v.y.real v.x.real
    rw [add_comm] at hy
    clear ha hb ht hs
    have hel := real_lt.mpr hl
    generalize √(v.x.real * v.x.real + v.y.real * v.y.real) = r at *
    have hLr : r ≤ 101 / 100 * v.length.real := by
      have h1 := (abs_le.mp hle).1
      have h2 : uR * r ≤ 1 / 1000 * r := mul_le_mul_of_nonneg_right hu' hr.le
      linarith
    have hlp : 0 < v.length.real := by linarith
    have hq : |L.real / v.length.real| ≤ 2 ^ 1000 := by
      rw [abs_div, abs_of_pos hlp, div_le_iff₀ hlp]
      have h1 : (2 : ℝ) ^ 1000 * (1 / 2 ^ 500) ≤ 2 ^ 1000 * v.length.real :=
        mul_le_mul_of_nonneg_left (he.trans hel.le) (by positivity)
      have h2 : (2 : ℝ) ^ 1000 * (1 / 2 ^ 500) = 2 ^ 500 := by
        have key : ∀ n : ℕ, (2 : ℝ) ^ (n + n) * (1 / 2 ^ n) = 2 ^ n := by
          intro n; rw [pow_add]; have := two_pow_pos n; field_simp
        exact key 500
      rw [h2] at h1
      exact hL.trans h1
    have hd := div_ok L v.length (hq.trans (pow_le_real (by norm_num)))
    have hs := quot_err hu.le hu' hr hle hd
    have hLl : |L.real / v.length.real| * r ≤ 101 / 100 * |L.real| := by
      rw [abs_div, abs_of_pos hlp, div_mul_eq_mul_div, div_le_iff₀ hlp]
      calc |L.real| * r ≤ |L.real| * (101 / 100 * v.length.real) := mul_le_mul_of_nonneg_left hLr (abs_nonneg _)
        _ = _ := by ring
    have eq5 : |L.real| / r = |L.real / r| := by rw [abs_div, abs_of_pos hr]
    rw [eq5] at hs
    have comp : ∀ x : Double, |x.real| ≤ 2 ^ 500 → |x.real| ≤ r →
        |(x * (L / v.length)).real - x.real * (L.real / r)| ≤
          61 / 10 * uR * |x.real * (L.real / r)| + 11 / 10 * (|x.real| * ηR) + ηR := by
      intro x hx5 hx
      have hb : |x.real * (L / v.length).real| ≤ 2 ^ 1023 := by
        have h1 := abs_sub_abs_le_abs_sub (L / v.length).real (L.real / v.length.real)
        have h2 : |(L / v.length).real| ≤ 2 * |L.real / v.length.real| + ηR := by
          have h3 := abs_nonneg (L.real / v.length.real)
          have h4 : uR * |L.real / v.length.real| ≤ 1 / 1000 * |L.real / v.length.real| := mul_le_mul_of_nonneg_right hu' h3
          linarith
        have h3 : |x.real| * |(L / v.length).real| ≤ 2 * (|L.real / v.length.real| * r) + |x.real| * ηR := by
          calc |x.real| * |(L / v.length).real| ≤ |x.real| * (2 * |L.real / v.length.real| + ηR) :=
                mul_le_mul_of_nonneg_left h2 (abs_nonneg _)
            _ = 2 * (|L.real / v.length.real| * |x.real|) + |x.real| * ηR := by ring
            _ ≤ _ := by
              have := mul_le_mul_of_nonneg_left hx (abs_nonneg (L.real / v.length.real))
              linarith
        have h5 : |x.real| * ηR ≤ |x.real| * 1 := by
          refine mul_le_mul_of_nonneg_left ?_ (abs_nonneg _)
          have := ηR_small
          have := ηR_pos
          linarith
        rw [abs_mul]
        have h6 : (2 : ℝ) ^ 500 * 4 ≤ 2 ^ 1023 := by
          calc (2 : ℝ) ^ 500 * 4 = 2 ^ 502 := by rw [show (502 : ℕ) = 500 + 2 by norm_num, pow_add]; norm_num
            _ ≤ _ := pow_le_real (by norm_num)
        refine le_trans ?_ h6
        clear h6 hq
        have hL0 := abs_nonneg L.real
        generalize (2 : ℝ) ^ 500 = P at *
        linarith
      exact scaleE hu.le hu' ηR_pos hs (mul_ok x (L / v.length) hb)
    exact ⟨comp _ hv.1 hx, comp _ hv.2 hy⟩
  · left
    refine ⟨?_, not_lt.mp hl⟩
    simp only [Vec2.scaledTo, gt_iff_lt, hl, if_false]

end Planar
