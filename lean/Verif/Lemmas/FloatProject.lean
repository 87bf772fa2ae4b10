import Verif.Lemmas.FloatDist
import Verif.Spec.Nearest
/- Projections and reflections in double precision: what the roundings do. -/
namespace Planar
open Spec
set_option linter.unusedSectionVars false

/-- The roundings of one coordinate of `project` on a vector near a unit vector. -/
theorem proj_err {u η R D d L q c p w : ℝ} (hu : 0 ≤ u) (hu' : u ≤ 1 / 1000) (hη : 0 ≤ η) (hη' : 1000 * η ≤ u)
    (hD : |D| ≤ R) (hc : |c| ≤ 1) (hd : |d - D| ≤ 12 * u * R + 4 * η) (hL : |L - 1| ≤ 20 * u)
    (hq : |q - d / L| ≤ u * |d / L| + η) (hp : |p - c| ≤ 8 * u * |c| + η) (hw : |w - p * q| ≤ u * |p * q| + η) :
    |w - c * D| ≤ 46 * (u * R) + 10 * η := by
  have R0 : 0 ≤ R := (abs_nonneg _).trans hD
  have uR0 : 0 ≤ u * R := mul_nonneg hu R0
  have uuR : u * (u * R) ≤ 1 / 1000 * (u * R) := mul_le_mul_of_nonneg_right hu' uR0
  have uR1 : u * R ≤ 1 / 1000 * R := mul_le_mul_of_nonneg_right hu' R0
  have uη : u * η ≤ 1 / 1000 * η := mul_le_mul_of_nonneg_right hu' hη
  have uη0 : 0 ≤ u * η := mul_nonneg hu hη
  have bd : |d| ≤ R + 12 * (u * R) + 4 * η := by
    have := abs_sub_abs_le_abs_sub d D; linarith
  have L1 : 98 / 100 ≤ L := by have := (abs_le.mp hL).1; linarith
  have Lp : 0 < L := by linarith
  have ud : u * |d| ≤ u * (R + 12 * (u * R) + 4 * η) := mul_le_mul_of_nonneg_left bd hu
  have ud0 : 0 ≤ u * |d| := mul_nonneg hu (abs_nonneg _)
  have e1 : |d / L - d| ≤ 205 / 10 * (u * |d|) := by
    rw [show d / L - d = d * ((1 - L) / L) by field_simp, abs_mul, abs_div, abs_of_pos Lp, abs_sub_comm]
    have : |L - 1| / L ≤ 205 / 10 * u := by
      rw [div_le_iff₀ Lp]
      have := mul_le_mul_of_nonneg_left L1 hu
      linarith
    calc |d| * (|L - 1| / L) ≤ |d| * (205 / 10 * u) := mul_le_mul_of_nonneg_left this (abs_nonneg _)
      _ = _ := by ring
  have bdL : |d / L| ≤ |d| + 205 / 10 * (u * |d|) := by
    have := abs_sub_abs_le_abs_sub (d / L) d; linarith
  have udL : u * |d / L| ≤ u * (|d| + 205 / 10 * (u * |d|)) := mul_le_mul_of_nonneg_left bdL hu
  have uud : u * (u * |d|) ≤ 1 / 1000 * (u * |d|) := mul_le_mul_of_nonneg_right hu' ud0
  have e2 : |q - D| ≤ 345 / 10 * (u * R) + 6 * η := by
    have t1 := abs_sub_le q (d / L) D
    have t2 := abs_sub_le (d / L) d D
    linarith
  have bq : |q| ≤ R + 345 / 10 * (u * R) + 6 * η := by
    have := abs_sub_abs_le_abs_sub q D; linarith
  have uq : u * |q| ≤ u * (R + 345 / 10 * (u * R) + 6 * η) := mul_le_mul_of_nonneg_left bq hu
  have c0 := abs_nonneg c
  have uc : u * |c| ≤ u * 1 := mul_le_mul_of_nonneg_left hc hu
  have bpc : |p - c| ≤ 801 / 100 * u := by linarith
  have e3 : |p * q - c * D| ≤ 44 * (u * R) + 8 * η := by
    rw [show p * q - c * D = (p - c) * q + c * (q - D) by ring]
    refine (abs_add_le _ _).trans ?_
    rw [abs_mul, abs_mul]
    have h1 : |p - c| * |q| ≤ 801 / 100 * u * |q| := mul_le_mul_of_nonneg_right bpc (abs_nonneg _)
    have h2 : |c| * |q - D| ≤ 1 * |q - D| := mul_le_mul_of_nonneg_right hc (abs_nonneg _)
    linarith
  have bcD : |c * D| ≤ R := by
    rw [abs_mul]; exact (mul_le_mul hc hD (abs_nonneg _) zero_le_one).trans (by linarith)
  have bpq : |p * q| ≤ R + 44 * (u * R) + 8 * η := by
    have := abs_sub_abs_le_abs_sub (p * q) (c * D); linarith
  have upq : u * |p * q| ≤ u * (R + 44 * (u * R) + 8 * η) := mul_le_mul_of_nonneg_left bpq hu
  have t := abs_sub_le w (p * q) (c * D)
  linarith

/-- The inner product with a unit vector is at most the length. -/
theorem dot_abs_le {c s x y : ℝ} (hcs : c * c + s * s = 1) : |x * c + y * s| ≤ √(x * x + y * y) := by
  apply Real.abs_le_sqrt
  nlinarith [mul_self_nonneg (x * s - y * c)]

/-- The squared length of what is near a unit vector, computed. -/
theorem near_len2 {n : Vec2 Double} {k c s : ℝ} (h : NearVec k c s n) (hcs : c * c + s * s = 1) (hk : 0 ≤ k) (hk' : k ≤ 8) :
    |n.length2.real - 1| ≤ 20 * uR := by
  have hsq := h.sq hcs hk hk'
  obtain ⟨n1, n2⟩ := h.small hcs hk hk'
  obtain ⟨a, b, ha, hb, ht, -, -⟩ := length2_parts n (n1.trans (pow_le_real (by norm_num))) (n2.trans (pow_le_real (by norm_num)))
  have hu := uR_pos
  have hu' := uR_small
  have hη := ηR_small
  have hη0 := ηR_pos
  have k1 : (2 * k + 1) * uR ≤ 17 * uR := mul_le_mul_of_nonneg_right (by linarith) hu.le
  have hS : n.x.real * n.x.real + n.y.real * n.y.real ≤ 1 + 17 * uR := by have := (abs_le.mp hsq).2; linarith
  have hx := mul_self_nonneg n.x.real
  have hy := mul_self_nonneg n.y.real
  have uS : uR * (n.x.real * n.x.real + n.y.real * n.y.real) ≤ uR * (1 + 17 * uR) := mul_le_mul_of_nonneg_left hS hu.le
  have uu : uR * uR ≤ 1 / 1000 * uR := mul_le_mul_of_nonneg_right hu' hu.le
  have e1 : |a + b - (n.x.real * n.x.real + n.y.real * n.y.real)| ≤ 11 / 10 * uR := by
    rw [show a + b - (n.x.real * n.x.real + n.y.real * n.y.real) = (a - n.x.real * n.x.real) + (b - n.y.real * n.y.real) by ring]
    exact (abs_add_le _ _).trans (by linarith)
  have bab : |a + b| ≤ 11 / 10 := by
    have h1 := abs_sub_abs_le_abs_sub (a + b) (n.x.real * n.x.real + n.y.real * n.y.real)
    rw [abs_of_nonneg (add_nonneg hx hy)] at h1
    linarith
  have ub : uR * |a + b| ≤ uR * (11 / 10) := mul_le_mul_of_nonneg_left bab hu.le
  have t1 := abs_sub_le n.length2.real (a + b) (n.x.real * n.x.real + n.y.real * n.y.real)
  have t2 := abs_sub_le n.length2.real (n.x.real * n.x.real + n.y.real * n.y.real) 1
  linarith

/-- `project` on a vector near the unit vector `(c, s)`, of a vector known up to relative errors. -/
theorem project_near {eps : Double} {t n : Vec2 Double} {x y c s T : ℝ} (h0 : 0 ≤ eps.real) (he : eps.real ≤ 1 / 2)
    (hcs : c * c + s * s = 1) (hx : |t.x.real - x| ≤ uR * |x|) (hy : |t.y.real - y| ≤ uR * |y|) (hn : NearVec 8 c s n)
    (hT : T ≤ 2 ^ 500) (bx : |x| ≤ 2 * T) (by' : |y| ≤ 2 * T) :
    ∃ w, n.project eps t = .ok w ∧
      |w.x.real - c * (x * c + y * s)| ≤ 46 * (uR * √(x * x + y * y)) + 10 * ηR ∧
      |w.y.real - s * (x * c + y * s)| ≤ 46 * (uR * √(x * x + y * y)) + 10 * ηR := by
  have hu := uR_pos
  have hu' := uR_small
  have hη := ηR_small
  have hη0 := ηR_pos
  have T0 : 0 ≤ T := by have := (abs_nonneg _).trans bx; linarith
  have c1 := unit_comp hcs
  have s1 : |s| ≤ 1 := unit_comp (c := s) (s := c) (by linarith)
  have ux : uR * |x| ≤ 1 / 1000 * |x| := mul_le_mul_of_nonneg_right hu' (abs_nonneg _)
  have uy : uR * |y| ≤ 1 / 1000 * |y| := mul_le_mul_of_nonneg_right hu' (abs_nonneg _)
  have b1 : |t.x.real| ≤ 3 * T := by have := abs_sub_abs_le_abs_sub t.x.real x; linarith
  have b2 : |t.y.real| ≤ 3 * T := by have := abs_sub_abs_le_abs_sub t.y.real y; linarith
  have hD := dot_double hcs hx hy hn (pow_room hT (b1.trans (by linarith)) (by norm_num))
    (pow_room hT (b2.trans (by linarith)) (by norm_num))
  rw [dot_comm_double] at hD
  have hL := near_len2 hn hcs (by norm_num) le_rfl
  have L1 : 98 / 100 ≤ n.length2.real := by have := (abs_le.mp hL).1; linarith
  have hgt : n.length2 > eps2 eps := by
    have hee : eps.real * eps.real ≤ 1 / 4 := by nlinarith
    have he0 := mul_self_nonneg eps.real
    have hE := mul_ok eps eps (by
      rw [abs_of_nonneg he0]
      calc eps.real * eps.real ≤ 1 := by linarith
        _ ≤ 2 ^ 1023 := one_le_pow₀ (by norm_num))
    rw [abs_of_nonneg he0] at hE
    have h3 : uR * (eps.real * eps.real) ≤ 1 / 1000 * (eps.real * eps.real) := mul_le_mul_of_nonneg_right hu' he0
    apply real_lt.mp
    simp only [eps2]
    have := (abs_le.mp hE).2
    clear hT
    linarith
  have hne : (n.length2 == 0) = false := by
    simp only [beq_eq_false_iff_ne]
    intro h
    rw [h, real_zero] at L1
    linarith
  have nR : √(x * x + y * y) ≤ 3 / 2 * (2 * T) := norm_within bx by'
  have R0 := Real.sqrt_nonneg (x * x + y * y)
  have dD := dot_abs_le (x := x) (y := y) hcs
  generalize √(x * x + y * y) = R at *
  generalize x * c + y * s = D at *
  have uR1 : uR * R ≤ 1 / 1000 * R := mul_le_mul_of_nonneg_right hu' R0
  have bd : |(n.dot t).real| ≤ 4 * T + 1 := by
    have := abs_sub_abs_le_abs_sub (n.dot t).real D; linarith
  have bq0 : |(n.dot t).real / n.length2.real| ≤ 5 * T + 2 := by
    rw [abs_div, abs_of_pos (by linarith : (0 : ℝ) < n.length2.real), div_le_iff₀ (by linarith)]
    have := mul_le_mul_of_nonneg_left L1 (by linarith : (0 : ℝ) ≤ 5 * T + 2)
    linarith
  have room : ∀ K : ℝ, K ≤ 100 * T + 100 → K ≤ 2 ^ 1023 := by
    intro K hK
    have h3 : (1 : ℝ) ≤ 2 ^ 500 := one_le_pow₀ (by norm_num)
    have h1 : (2 : ℝ) ^ 510 = 1024 * 2 ^ 500 := by rw [show (510 : ℕ) = 10 + 500 by norm_num, pow_add]; norm_num
    refine le_trans ?_ (pow_le_real (show 510 ≤ 1023 by norm_num))
    rw [h1]
    clear h1
    generalize (2 : ℝ) ^ 500 = T' at *
    linarith
  have hq := div_ok (n.dot t) n.length2 (room _ (bq0.trans (by linarith)))
  have uq : uR * |(n.dot t).real / n.length2.real| ≤ 1 / 1000 * |(n.dot t).real / n.length2.real| :=
    mul_le_mul_of_nonneg_right hu' (abs_nonneg _)
  have bq : |(n.dot t / n.length2).real| ≤ 6 * T + 3 := by
    have := abs_sub_abs_le_abs_sub (n.dot t / n.length2).real ((n.dot t).real / n.length2.real); linarith
  obtain ⟨n1, n2⟩ := hn.small hcs (by norm_num) le_rfl
  have prod : ∀ z : Double, |z.real| ≤ 2 ^ 1 → |z.real * (n.dot t / n.length2).real| ≤ 2 ^ 1023 := by
    intro z hz
    refine room _ ?_
    rw [abs_mul]
    have := mul_le_mul hz bq (abs_nonneg _) (by norm_num)
    linarith
  have hw1 := mul_ok n.x (n.dot t / n.length2) (prod _ n1)
  have hw2 := mul_ok n.y (n.dot t / n.length2) (prod _ n2)
  refine ⟨⟨n.x * (n.dot t / n.length2), n.y * (n.dot t / n.length2)⟩, ?_, ?_, ?_⟩
  · simp only [Vec2.project, hgt, if_true, pydiv, hne, Bool.false_eq_true, if_false, bind, Except.bind, pure, Except.pure]
  · exact proj_err hu.le hu' hη0 hη dD c1 hD hL hq hn.1 hw1
  · exact proj_err hu.le hu' hη0 hη dD s1 hD hL hq hn.2 hw2

/-- What is at most `100 T + 100` does not overflow. -/
theorem room {T K : ℝ} (hT : T ≤ 2 ^ 500) (hK : K ≤ 100 * T + 100) : K ≤ 2 ^ 1023 := by
  have h3 : (1 : ℝ) ≤ 2 ^ 500 := one_le_pow₀ (by norm_num)
  have h1 : (2 : ℝ) ^ 510 = 1024 * 2 ^ 500 := by rw [show (510 : ℕ) = 10 + 500 by norm_num, pow_add]; norm_num
  refine le_trans ?_ (pow_le_real (show 510 ≤ 1023 by norm_num))
  rw [h1]
  clear h1
  generalize (2 : ℝ) ^ 500 = T' at *
  linarith

/-- The product of a component near that of a unit vector and a number known up to `e`. -/
theorem mul_near {z o : Double} {c O e B : ℝ} (hc : |c| ≤ 1) (hz : |z.real - c| ≤ 8 * uR * |c| + ηR) (ho : |o.real - O| ≤ e)
    (hO : |O| ≤ B) (hb : 2 * (B + e) ≤ 2 ^ 1023) : |(z * o).real - c * O| ≤ 102 / 100 * e + 10 * (uR * B) + ηR := by
  have hu := uR_pos
  have hu' := uR_small
  have hη := ηR_small
  have hη0 := ηR_pos
  have e0 : 0 ≤ e := (abs_nonneg _).trans ho
  have B0 : 0 ≤ B := (abs_nonneg _).trans hO
  have c0 := abs_nonneg c
  have uc : uR * |c| ≤ uR * 1 := mul_le_mul_of_nonneg_left hc hu.le
  have bzc : |z.real - c| ≤ 801 / 100 * uR := by linarith
  have bo : |o.real| ≤ B + e := by have := abs_sub_abs_le_abs_sub o.real O; linarith
  have uB : 0 ≤ uR * B := mul_nonneg hu.le B0
  have ue : 0 ≤ uR * e := mul_nonneg hu.le e0
  have uB' : uR * (uR * B) ≤ 1 / 1000 * (uR * B) := mul_le_mul_of_nonneg_right hu' uB
  have ue' : uR * e ≤ 1 / 1000 * e := mul_le_mul_of_nonneg_right hu' e0
  have uue : uR * (uR * e) ≤ 1 / 1000 * (uR * e) := mul_le_mul_of_nonneg_right hu' ue
  have uBe : uR * |o.real| ≤ uR * (B + e) := mul_le_mul_of_nonneg_left bo hu.le
  have e3 : |z.real * o.real - c * O| ≤ 801 / 100 * (uR * (B + e)) + e := by
    rw [show z.real * o.real - c * O = (z.real - c) * o.real + c * (o.real - O) by ring]
    refine (abs_add_le _ _).trans ?_
    rw [abs_mul, abs_mul]
    have h1 : |z.real - c| * |o.real| ≤ 801 / 100 * uR * |o.real| := mul_le_mul_of_nonneg_right bzc (abs_nonneg _)
    have h2 : |c| * |o.real - O| ≤ 1 * |o.real - O| := mul_le_mul_of_nonneg_right hc (abs_nonneg _)
    linarith
  have bcO : |c * O| ≤ B := by
    rw [abs_mul]; exact (mul_le_mul hc hO (abs_nonneg _) zero_le_one).trans (by linarith)
  have uBB : uR * B ≤ 1 / 1000 * B := mul_le_mul_of_nonneg_right hu' B0
  have bzo : |z.real * o.real| ≤ B + (801 / 100 * (uR * (B + e)) + e) := by
    have := abs_sub_abs_le_abs_sub (z.real * o.real) (c * O); linarith
  have hM := mul_ok z o (le_trans (by linarith) hb)
  have uzo : uR * |z.real * o.real| ≤ uR * (B + (801 / 100 * (uR * (B + e)) + e)) := mul_le_mul_of_nonneg_left bzo hu.le
  have t := abs_sub_le (z * o).real (z.real * o.real) (c * O)
  clear hb
  linarith

/-- The sum of two numbers known up to `ea` and `eb`. -/
theorem add_near {a b : Double} {A B ea eb N : ℝ} (ha : |a.real - A| ≤ ea) (hb : |b.real - B| ≤ eb) (hN : |A + B| ≤ N)
    (hb' : N + ea + eb ≤ 2 ^ 1023) : |(a + b).real - (A + B)| ≤ 101 / 100 * (ea + eb) + uR * N + ηR := by
  have hu := uR_pos
  have hu' := uR_small
  have e1 : |a.real + b.real - (A + B)| ≤ ea + eb := by
    rw [show a.real + b.real - (A + B) = (a.real - A) + (b.real - B) by ring]
    exact (abs_add_le _ _).trans (by linarith)
  have h0 : 0 ≤ ea + eb := (abs_nonneg _).trans e1
  have b1 : |a.real + b.real| ≤ N + (ea + eb) := by
    have := abs_sub_abs_le_abs_sub (a.real + b.real) (A + B); linarith
  have hS := add_ok a b (b1.trans (by linarith))
  have u1 : uR * |a.real + b.real| ≤ uR * (N + (ea + eb)) := mul_le_mul_of_nonneg_left b1 hu.le
  have u2 : uR * (ea + eb) ≤ 1 / 1000 * (ea + eb) := mul_le_mul_of_nonneg_right hu' h0
  have t := abs_sub_le (a + b).real (a.real + b.real) (A + B)
  clear hb'
  linarith

/-- The difference of two numbers known up to `ea` and `eb`. -/
theorem sub_near {a b : Double} {A B ea eb N : ℝ} (ha : |a.real - A| ≤ ea) (hb : |b.real - B| ≤ eb) (hN : |A - B| ≤ N)
    (hb' : N + ea + eb ≤ 2 ^ 1023) : |(a - b).real - (A - B)| ≤ 101 / 100 * (ea + eb) + uR * N := by
  have hu := uR_pos
  have hu' := uR_small
  have e1 : |a.real - b.real - (A - B)| ≤ ea + eb := by
    rw [show a.real - b.real - (A - B) = (a.real - A) - (b.real - B) by ring]
    exact (abs_sub _ _).trans (by linarith)
  have h0 : 0 ≤ ea + eb := (abs_nonneg _).trans e1
  have b1 : |a.real - b.real| ≤ N + (ea + eb) := by
    have := abs_sub_abs_le_abs_sub (a.real - b.real) (A - B); linarith
  have hS := sub_ok a b (b1.trans (by linarith))
  have u1 : uR * |a.real - b.real| ≤ uR * (N + (ea + eb)) := mul_le_mul_of_nonneg_left b1 hu.le
  have u2 : uR * (ea + eb) ≤ 1 / 1000 * (ea + eb) := mul_le_mul_of_nonneg_right hu' h0
  have t := abs_sub_le (a - b).real (a.real - b.real) (A - B)
  clear hb'
  linarith

theorem real_two : ((1 : Double) + 1).real = 2 := by
  have : ((1 : Double) + 1).val = 2 := by decide +kernel
  rw [Fl.real, this]; norm_num

/-- `project` on a line through `a` whose direction is near `(c, s)`. -/
theorem line_project {eps : Double} {l : Line Double} {a p : Vec2 Double} {c s M : ℝ} (h0 : 0 ≤ eps.real)
    (he : eps.real ≤ 1 / 2) (hcs : c * c + s * s = 1) (hd : NearVec 8 c s l.direction)
    (hn : l.normal = ⟨l.direction.y, -l.direction.x⟩) (ho : l.offset = a.dot l.normal) (ha : Within M a) (hp : Within M p)
    (hM : M ≤ 2 ^ 500) :
    ∃ q, l.project eps p = .ok q ∧
      |q.x.real - (c * (p.x.real * c + p.y.real * s) + s * (a.x.real * s + a.y.real * -c))| ≤ 125 * (uR * M) + 20 * ηR ∧
      |q.y.real - (s * (p.x.real * c + p.y.real * s) + -c * (a.x.real * s + a.y.real * -c))| ≤ 125 * (uR * M) + 20 * ηR := by
  have hcs' : s * s + -c * -c = 1 := by linarith
  have c1 := unit_comp hcs
  have s1 : |s| ≤ 1 := unit_comp (c := s) (s := c) (by linarith)
  have nc1 : |-c| ≤ 1 := by rw [abs_neg]; exact c1
  have hnn : NearVec 8 s (-c) l.normal := by rw [hn]; exact hd.right
  have hu := uR_pos
  have hu' := uR_small
  have hη := ηR_small
  have hη0 := ηR_pos
  have M0 : 0 ≤ M := (abs_nonneg _).trans ha.1
  obtain ⟨w, hw, wx, wy⟩ := project_near h0 he hcs (rel_self p.x.real) (rel_self p.y.real) hd hM
    (hp.1.trans (by linarith)) (hp.2.trans (by linarith))
  have hM2 : M ≤ 2 ^ 1000 := hM.trans (pow_le_real (by norm_num))
  have da := dot_double hcs' (rel_self a.x.real) (rel_self a.y.real) hnn (ha.1.trans hM2) (ha.2.trans hM2)
  rw [← ho] at da
  have np := norm_within hp.1 hp.2
  have na := norm_within ha.1 ha.2
  have dp := dot_abs_le (x := p.x.real) (y := p.y.real) hcs
  have dq := dot_abs_le (x := a.x.real) (y := a.y.real) hcs'
  refine ⟨⟨w.x + l.normal.x * l.offset, w.y + l.normal.y * l.offset⟩, ?_, ?_⟩
  · simp only [Line.project, hw, bind, Except.bind, pure, Except.pure]; rfl
  generalize √(p.x.real * p.x.real + p.y.real * p.y.real) = R at *
  generalize √(a.x.real * a.x.real + a.y.real * a.y.real) = Q at *
  generalize p.x.real * c + p.y.real * s = D at *
  generalize a.x.real * s + a.y.real * -c = O at *
  have uM : 0 ≤ uR * M := mul_nonneg hu.le M0
  have uM' : uR * M ≤ 1 / 1000 * M := mul_le_mul_of_nonneg_right hu' M0
  have uRR : uR * R ≤ uR * (3 / 2 * M) := mul_le_mul_of_nonneg_left np hu.le
  have uQ : uR * Q ≤ uR * (3 / 2 * M) := mul_le_mul_of_nonneg_left na hu.le
  have bO : |O| ≤ 3 / 2 * M := dq.trans na
  have bD : |D| ≤ 3 / 2 * M := dp.trans np
  have da' : |l.offset.real - O| ≤ 18 * (uR * M) + 4 * ηR := da.trans (by linarith)
  have one : ∀ g h : ℝ, ∀ z v : Double, |g| ≤ 1 → |h| ≤ 1 → |z.real - g| ≤ 8 * uR * |g| + ηR →
      |v.real - h * D| ≤ 46 * (uR * R) + 10 * ηR → |(v + z * l.offset).real - (h * D + g * O)| ≤ 125 * (uR * M) + 20 * ηR := by
    intro g h z v g1 h1 hz hv
    have m := mul_near g1 hz da' bO (room hM (by linarith))
    have b1 : |h * D| ≤ 3 / 2 * M := by
      rw [abs_mul]; exact (mul_le_mul h1 bD (abs_nonneg _) zero_le_one).trans (by linarith)
    have b2 : |g * O| ≤ 3 / 2 * M := by
      rw [abs_mul]; exact (mul_le_mul g1 bO (abs_nonneg _) zero_le_one).trans (by linarith)
    have hv' : |v.real - h * D| ≤ 69 * (uR * M) + 10 * ηR := hv.trans (by linarith)
    have m' : |(z * l.offset).real - g * O| ≤ 34 * (uR * M) + 6 * ηR := m.trans (by linarith)
    have := add_near hv' m' ((abs_add_le _ _).trans (add_le_add b1 b2)) (room hM (by linarith))
    clear hM hM2
    linarith
  exact ⟨one s c _ _ s1 c1 hnn.1 wx, one (-c) s _ _ nc1 s1 hnn.2 wy⟩

/-- `reflect` in a line through `a` whose direction is near `(c, s)`. -/
theorem line_reflect {l : Line Double} {a p : Vec2 Double} {c s M : ℝ} (hcs : c * c + s * s = 1)
    (hd : NearVec 8 c s l.direction) (hn : l.normal = ⟨l.direction.y, -l.direction.x⟩) (ho : l.offset = a.dot l.normal)
    (ha : Within M a) (hp : Within M p) (hM : M ≤ 2 ^ 500) :
    |(l.reflect p).x.real - (p.x.real - s * (2 * ((p.x.real - a.x.real) * s - (p.y.real - a.y.real) * c)))| ≤
      220 * (uR * M) + 40 * ηR ∧
    |(l.reflect p).y.real - (p.y.real - -c * (2 * ((p.x.real - a.x.real) * s - (p.y.real - a.y.real) * c)))| ≤
      220 * (uR * M) + 40 * ηR := by
  have key := line_dist hcs hd hn ho ha hp hM
  have hcs' : s * s + -c * -c = 1 := by linarith
  have c1 := unit_comp hcs
  have s1 : |s| ≤ 1 := unit_comp (c := s) (s := c) (by linarith)
  have nc1 : |-c| ≤ 1 := by rw [abs_neg]; exact c1
  have hnn : NearVec 8 s (-c) l.normal := by rw [hn]; exact hd.right
  have hu := uR_pos
  have hu' := uR_small
  have hη := ηR_small
  have hη0 := ηR_pos
  have M0 : 0 ≤ M := (abs_nonneg _).trans ha.1
  have hr : l.reflect p = ⟨p.x - l.normal.x * (1 + 1) * l.distanceTo p, p.y - l.normal.y * (1 + 1) * l.distanceTo p⟩ := by
    rw [Line.reflect, Line.distanceTo, Vec2.copy_fl]; rfl
  have bx : |p.x.real - a.x.real| ≤ 2 * M := (abs_sub _ _).trans (by linarith [hp.1, ha.1])
  have by' : |p.y.real - a.y.real| ≤ 2 * M := (abs_sub _ _).trans (by linarith [hp.2, ha.2])
  have bS : |(p.x.real - a.x.real) * s - (p.y.real - a.y.real) * c| ≤ 3 * M := by
    have h1 := dot_abs_le (x := p.x.real - a.x.real) (y := p.y.real - a.y.real) hcs'
    have h2 := norm_within bx by'
    rw [show (p.x.real - a.x.real) * s - (p.y.real - a.y.real) * c =
      (p.x.real - a.x.real) * s + (p.y.real - a.y.real) * -c by ring]
    linarith
  rw [hr]
  generalize (p.x.real - a.x.real) * s - (p.y.real - a.y.real) * c = S at *
  generalize l.distanceTo p = d at *
  have uM : 0 ≤ uR * M := mul_nonneg hu.le M0
  have uM' : uR * M ≤ 1 / 1000 * M := mul_le_mul_of_nonneg_right hu' M0
  have uη : uR * ηR ≤ 1 / 1000 * ηR := mul_le_mul_of_nonneg_right hu' hη0
  have uu : uR * uR ≤ 1 / 1000 * uR := mul_le_mul_of_nonneg_right hu' hu.le
  have one : ∀ g : ℝ, ∀ z P : Double, |g| ≤ 1 → |P.real| ≤ M → |z.real - g| ≤ 8 * uR * |g| + ηR →
      |(P - z * (1 + 1) * d).real - (P.real - g * (2 * S))| ≤ 220 * (uR * M) + 40 * ηR := by
    intro g z P g1 bP hz
    have g0 := abs_nonneg g
    have ug : uR * |g| ≤ uR * 1 := mul_le_mul_of_nonneg_left g1 hu.le
    have bz : |z.real| ≤ 2 := by have := abs_sub_abs_le_abs_sub z.real g; linarith
    have hzz : |z.real * (1 + 1 : Double).real| ≤ 4 := by rw [real_two, abs_mul, abs_two]; linarith
    have m1 := mul_ok z (1 + 1) (room hM (by linarith))
    rw [real_two] at m1 hzz
    have uz : uR * |z.real * 2| ≤ uR * 4 := mul_le_mul_of_nonneg_left hzz hu.le
    have e1 : |(z * (1 + 1)).real - 2 * g| ≤ 22 * uR := by
      have t := abs_sub_le (z * (1 + 1)).real (z.real * 2) (2 * g)
      rw [show z.real * 2 - 2 * g = 2 * (z.real - g) by ring, abs_mul, abs_two] at t
      linarith
    have b2g : |2 * g| ≤ 2 := by rw [abs_mul, abs_two]; linarith
    have b1 : |(z * (1 + 1)).real| ≤ 3 := by have := abs_sub_abs_le_abs_sub (z * (1 + 1)).real (2 * g); linarith
    have bd : |d.real| ≤ 4 * M + 1 := by have := abs_sub_abs_le_abs_sub d.real S; linarith
    have bd' : |d.real| ≤ 31 / 10 * M + 9 * ηR := by have := abs_sub_abs_le_abs_sub d.real S; linarith
    have b3 : |(z * (1 + 1)).real * d.real| ≤ 3 * (4 * M + 1) := by
      rw [abs_mul]; exact mul_le_mul b1 bd (abs_nonneg _) (by norm_num)
    have m2 := mul_ok (z * (1 + 1)) d (room hM (b3.trans (by linarith)))
    have ud : uR * |d.real| ≤ uR * (31 / 10 * M + 9 * ηR) := mul_le_mul_of_nonneg_left bd' hu.le
    have e2 : |(z * (1 + 1)).real * d.real - g * (2 * S)| ≤ 155 * (uR * M) + 20 * ηR := by
      rw [show (z * (1 + 1)).real * d.real - g * (2 * S) = ((z * (1 + 1)).real - 2 * g) * d.real + 2 * g * (d.real - S) by ring]
      refine (abs_add_le _ _).trans ?_
      rw [abs_mul, abs_mul]
      have h1 : |(z * (1 + 1)).real - 2 * g| * |d.real| ≤ 22 * uR * |d.real| := mul_le_mul_of_nonneg_right e1 (abs_nonneg _)
      have h2 : |2 * g| * |d.real - S| ≤ 2 * |d.real - S| := mul_le_mul_of_nonneg_right b2g (abs_nonneg _)
      linarith
    have bgS : |g * (2 * S)| ≤ 6 * M := by
      rw [abs_mul, abs_mul, abs_two]
      have := mul_le_mul g1 bS (abs_nonneg _) zero_le_one
      linarith
    have b4 : |(z * (1 + 1)).real * d.real| ≤ 7 * M + 20 * ηR := by
      have := abs_sub_abs_le_abs_sub ((z * (1 + 1)).real * d.real) (g * (2 * S)); linarith
    have u4 : uR * |(z * (1 + 1)).real * d.real| ≤ uR * (7 * M + 20 * ηR) := mul_le_mul_of_nonneg_left b4 hu.le
    have e3 : |(z * (1 + 1) * d).real - g * (2 * S)| ≤ 163 * (uR * M) + 22 * ηR := by
      have := abs_sub_le (z * (1 + 1) * d).real ((z * (1 + 1)).real * d.real) (g * (2 * S))
      linarith
    have := sub_near (ea := 0) (a := P) (A := P.real) (by simp) e3 ((abs_sub _ _).trans (add_le_add bP bgS)) (room hM (by linarith))
    clear hM
    linarith
  exact ⟨one s _ _ s1 hp.1 hnn.1, one (-c) _ _ nc1 hp.2 hnn.2⟩

/-- The first steps of `project` on a ray or a segment: the component along the direction, how long it is, and the point. -/
theorem near_along {eps : Double} {d a p : Vec2 Double} {c s M : ℝ} (h0 : 0 ≤ eps.real)
    (he : eps.real ≤ 1 / 2) (hcs : c * c + s * s = 1) (hd : NearVec 8 c s d) (ha : Within M a) (hp : Within M p)
    (hM : M ≤ 2 ^ 500) (A : ℝ) (hA : A = (p.x.real - a.x.real) * c + (p.y.real - a.y.real) * s) :
    ∃ w, d.project eps (p - a) = .ok w ∧ |(w.dot d).real - A| ≤ 340 * (uR * M) + 30 * ηR ∧
      |(w.x + a.x).real - (a.x.real + A * c)| ≤ 145 * (uR * M) + 15 * ηR ∧
      |(w.y + a.y).real - (a.y.real + A * s)| ≤ 145 * (uR * M) + 15 * ηR := by
  have c1 := unit_comp hcs
  have s1 : |s| ≤ 1 := unit_comp (c := s) (s := c) (by linarith)
  have hu := uR_pos
  have hu' := uR_small
  have hη := ηR_small
  have hη0 := ηR_pos
  have M0 : 0 ≤ M := (abs_nonneg _).trans ha.1
  have uM : 0 ≤ uR * M := mul_nonneg hu.le M0
  have uM' : uR * M ≤ 1 / 1000 * M := mul_le_mul_of_nonneg_right hu' M0
  have uuM : uR * (uR * M) ≤ 1 / 1000 * (uR * M) := mul_le_mul_of_nonneg_right hu' uM
  have uη : uR * ηR ≤ 1 / 1000 * ηR := mul_le_mul_of_nonneg_right hu' hη0
  have bx : |p.x.real - a.x.real| ≤ 2 * M := (abs_sub _ _).trans (by linarith [hp.1, ha.1])
  have by' : |p.y.real - a.y.real| ≤ 2 * M := (abs_sub _ _).trans (by linarith [hp.2, ha.2])
  have tx' : |(p - a).x.real - (p.x.real - a.x.real)| ≤ uR * |p.x.real - a.x.real| :=
    sub_ok p.x a.x (pow_room hM (bx.trans (by linarith)) (by norm_num))
  have ty' : |(p - a).y.real - (p.y.real - a.y.real)| ≤ uR * |p.y.real - a.y.real| :=
    sub_ok p.y a.y (pow_room hM (by'.trans (by linarith)) (by norm_num))
  obtain ⟨w, hw, wx, wy⟩ := project_near h0 he hcs tx' ty' hd hM bx by'
  have nr := norm_within bx by'
  have dA := dot_abs_le (x := p.x.real - a.x.real) (y := p.y.real - a.y.real) hcs
  rw [← hA] at wx wy dA
  generalize √((p.x.real - a.x.real) * (p.x.real - a.x.real) + (p.y.real - a.y.real) * (p.y.real - a.y.real)) = R at *
  have uRR : uR * R ≤ uR * (3 / 2 * (2 * M)) := mul_le_mul_of_nonneg_left nr hu.le
  have bA : |A| ≤ 3 * M := by linarith
  have wx' : |w.x.real - c * A| ≤ 138 * (uR * M) + 10 * ηR := wx.trans (by linarith)
  have wy' : |w.y.real - s * A| ≤ 138 * (uR * M) + 10 * ηR := wy.trans (by linarith)
  have prod : ∀ g : ℝ, |g| ≤ 1 → |g * A| ≤ 3 * M := by
    intro g hg
    rw [abs_mul]; exact (mul_le_mul hg bA (abs_nonneg _) zero_le_one).trans (by linarith)
  have bcA := prod c c1
  have bsA := prod s s1
  have bwx : |w.x.real| ≤ 32 / 10 * M + 10 * ηR := by have := abs_sub_abs_le_abs_sub w.x.real (c * A); linarith
  have bwy : |w.y.real| ≤ 32 / 10 * M + 10 * ηR := by have := abs_sub_abs_le_abs_sub w.y.real (s * A); linarith
  have nw := norm_within bwx bwy
  have hdot := dot_double hcs (rel_self w.x.real) (rel_self w.y.real) hd
    (pow_room hM (bwx.trans (by linarith)) (by norm_num)) (pow_room hM (bwy.trans (by linarith)) (by norm_num))
  have unw := mul_le_mul_of_nonneg_left nw hu.le
  have ex : |w.x.real * c + w.y.real * s - A| ≤ 2 * (138 * (uR * M) + 10 * ηR) := by
    have e : w.x.real * c + w.y.real * s - A = (w.x.real - c * A) * c + (w.y.real - s * A) * s := by
      linear_combination A * hcs
    rw [e]
    refine (abs_add_le _ _).trans ?_
    rw [abs_mul, abs_mul]
    have h1 := mul_le_mul_of_nonneg_left c1 (abs_nonneg (w.x.real - c * A))
    have h2 := mul_le_mul_of_nonneg_left s1 (abs_nonneg (w.y.real - s * A))
    linarith
  refine ⟨w, hw, ?_, ?_, ?_⟩
  · have t := abs_sub_le (w.dot d).real (w.x.real * c + w.y.real * s) A
    clear hM
    linarith
  · have h1 : |c * A + a.x.real| ≤ 4 * M := (abs_add_le _ _).trans (by linarith [ha.1])
    have := add_near (eb := 0) (b := a.x) (B := a.x.real) wx' (by simp) h1 (room hM (by linarith))
    rw [show a.x.real + A * c = c * A + a.x.real by ring]
    clear hM
    linarith
  · have h1 : |s * A + a.y.real| ≤ 4 * M := (abs_add_le _ _).trans (by linarith [ha.2])
    have := add_near (eb := 0) (b := a.y) (B := a.y.real) wy' (by simp) h1 (room hM (by linarith))
    rw [show a.y.real + A * s = s * A + a.y.real by ring]
    clear hM
    linarith

/-! ### The nearest points, exactly -/

/-- Which of two points on a line is nearer. -/
theorem nearer_param {a p F G : Vec2 ℝ} {c s t t' : ℝ} (hcs : c * c + s * s = 1) (hx : F.x = a.x + t * c)
    (hy : F.y = a.y + t * s) (hx' : G.x = a.x + t' * c) (hy' : G.y = a.y + t' * s) (h : gap p F ≤ gap p G) :
    t * t - 2 * t * ((p.x - a.x) * c + (p.y - a.y) * s) ≤ t' * t' - 2 * t' * ((p.x - a.x) * c + (p.y - a.y) * s) := by
  have h2 := mul_self_le_mul_self (Real.sqrt_nonneg _) h
  simp only [gap, vlen] at h2
  rw [Real.mul_self_sqrt (add_nonneg (mul_self_nonneg _) (mul_self_nonneg _)),
    Real.mul_self_sqrt (add_nonneg (mul_self_nonneg _) (mul_self_nonneg _)), hx, hy, hx', hy'] at h2
  have e : ∀ t : ℝ, (p.x - (a.x + t * c)) * (p.x - (a.x + t * c)) + (p.y - (a.y + t * s)) * (p.y - (a.y + t * s)) =
      (p.x - a.x) * (p.x - a.x) + (p.y - a.y) * (p.y - a.y) +
        (t * t - 2 * t * ((p.x - a.x) * c + (p.y - a.y) * s)) := by
    intro t; linear_combination t * t * hcs
  rw [e, e] at h2
  linarith

variable {a v p F : Vec2 ℝ} (hv : 0 < vlen v)
include hv

theorem ahead_eq : ahead a v p = (p.x - a.x) * (v.x / vlen v) + (p.y - a.y) * (v.y / vlen v) := by
  rw [ahead]; ring

theorem vunit : v.x / vlen v * (v.x / vlen v) + v.y / vlen v * (v.y / vlen v) = 1 := unit_of_div hv

theorem nearest_line (h : Nearest (OnLine a v) p F) :
    F.x = a.x + ahead a v p * (v.x / vlen v) ∧ F.y = a.y + ahead a v p * (v.y / vlen v) := by
  obtain ⟨⟨t, hx, hy⟩, hm⟩ := h
  have ex : F.x = a.x + t * vlen v * (v.x / vlen v) := by rw [hx]; field_simp
  have ey : F.y = a.y + t * vlen v * (v.y / vlen v) := by rw [hy]; field_simp
  have := nearer_param (vunit hv) ex ey (G := ⟨a.x + ahead a v p * (v.x / vlen v), a.y + ahead a v p * (v.y / vlen v)⟩) rfl rfl
    (hm _ ⟨ahead a v p / vlen v, by simp only; ring, by simp only; ring⟩)
  rw [← ahead_eq hv] at this
  have e : t * vlen v = ahead a v p := by
    nlinarith [mul_self_nonneg (t * vlen v - ahead a v p)]
  rw [ex, ey, e]
  exact ⟨rfl, rfl⟩

theorem nearest_ray (h : Nearest (OnRay a v) p F) :
    F.x = a.x + max (ahead a v p) 0 * (v.x / vlen v) ∧ F.y = a.y + max (ahead a v p) 0 * (v.y / vlen v) := by
  obtain ⟨⟨t, t0, hx, hy⟩, hm⟩ := h
  have ex : F.x = a.x + t * vlen v * (v.x / vlen v) := by rw [hx]; field_simp
  have ey : F.y = a.y + t * vlen v * (v.y / vlen v) := by rw [hy]; field_simp
  have := nearer_param (vunit hv) ex ey
    (G := ⟨a.x + max (ahead a v p) 0 * (v.x / vlen v), a.y + max (ahead a v p) 0 * (v.y / vlen v)⟩) rfl rfl
    (hm _ ⟨max (ahead a v p) 0 / vlen v, by positivity, by simp only; ring, by simp only; ring⟩)
  rw [← ahead_eq hv] at this
  have t1 : 0 ≤ t * vlen v := by positivity
  have e : t * vlen v = max (ahead a v p) 0 := by
    generalize t * vlen v = τ at *
    generalize ahead a v p = A at *
    rcases le_total 0 A with h | h
    · rw [max_eq_left h] at *
      nlinarith [mul_self_nonneg (τ - A)]
    · rw [max_eq_right h] at *
      have h1 : τ * A ≤ 0 := mul_nonpos_of_nonneg_of_nonpos t1 h
      have h2 : τ * τ ≤ 0 := by linarith
      have := mul_self_eq_zero.mp (le_antisymm h2 (mul_self_nonneg τ))
      exact this
  rw [ex, ey, e]
  exact ⟨rfl, rfl⟩

theorem nearest_seg (h : Nearest (OnSeg a ⟨a.x + v.x, a.y + v.y⟩) p F) :
    F.x = a.x + min (max (ahead a v p) 0) (vlen v) * (v.x / vlen v) ∧
    F.y = a.y + min (max (ahead a v p) 0) (vlen v) * (v.y / vlen v) := by
  obtain ⟨⟨t, t0, t1, hx, hy⟩, hm⟩ := h
  have ex : F.x = a.x + t * vlen v * (v.x / vlen v) := by rw [hx]; field_simp; ring
  have ey : F.y = a.y + t * vlen v * (v.y / vlen v) := by rw [hy]; field_simp; ring
  have m0 : 0 ≤ min (max (ahead a v p) 0) (vlen v) := le_min (le_max_right _ _) hv.le
  have := nearer_param (vunit hv) ex ey
    (G := ⟨a.x + min (max (ahead a v p) 0) (vlen v) * (v.x / vlen v),
      a.y + min (max (ahead a v p) 0) (vlen v) * (v.y / vlen v)⟩) rfl rfl
    (hm _ ⟨min (max (ahead a v p) 0) (vlen v) / vlen v, by positivity,
      by rw [div_le_one hv]; exact min_le_right _ _, by simp only; ring, by simp only; ring⟩)
  rw [← ahead_eq hv] at this
  have q0 : 0 ≤ t * vlen v := by positivity
  have q1 : t * vlen v ≤ vlen v := mul_le_of_le_one_left hv.le t1
  have e : t * vlen v = min (max (ahead a v p) 0) (vlen v) := by
    generalize t * vlen v = τ at *
    generalize ahead a v p = A at *
    generalize vlen v = k at *
    rcases le_total 0 A with h | h
    · rw [max_eq_left h] at *
      rcases le_total A k with h' | h'
      · rw [min_eq_left h'] at *
        nlinarith [mul_self_nonneg (τ - A)]
      · rw [min_eq_right h'] at *
        have h2 : 0 ≤ (k - τ) * (A - k) := mul_nonneg (by linarith) (by linarith)
        have h3 : (k - τ) * (k - τ) ≤ 0 := by nlinarith
        have := mul_self_eq_zero.mp (le_antisymm h3 (mul_self_nonneg _))
        linarith
    · rw [max_eq_right h, min_eq_left hv.le] at *
      have h1 : τ * A ≤ 0 := mul_nonpos_of_nonneg_of_nonpos q0 h
      have h2 : τ * τ ≤ 0 := by linarith
      exact mul_self_eq_zero.mp (le_antisymm h2 (mul_self_nonneg τ))
  rw [ex, ey, e]
  exact ⟨rfl, rfl⟩

end Planar
