import Verif.Lemmas.FloatFrame
/- Distances from lines, rays and segments in double precision. -/
set_option linter.unusedSectionVars false
namespace Planar
open Spec

theorem norm_within {x y M : ℝ} (hx : |x| ≤ M) (hy : |y| ≤ M) : √(x * x + y * y) ≤ 3 / 2 * M := by
  have hM : 0 ≤ M := (abs_nonneg x).trans hx
  refine Real.sqrt_le_iff.mpr ⟨by linarith, ?_⟩
  have h1 := mul_self_le_mul_self (abs_nonneg x) hx
  have h2 := mul_self_le_mul_self (abs_nonneg y) hy
  rw [abs_mul_abs_self] at h1 h2
  nlinarith [mul_self_nonneg M]

theorem rel_self (x : ℝ) : |x - x| ≤ uR * |x| := by
  rw [sub_self, abs_zero]; exact mul_nonneg uR_pos.le (abs_nonneg _)

/-- A component of the unit vector along a vector with relative errors. -/
theorem dir_shift {x y x' y' u : ℝ} (hu : 0 ≤ u) (hu' : u ≤ 1 / 1000) (hx : |x' - x| ≤ u * |x|) (hy : |y' - y| ≤ u * |y|)
    (hr : 0 < √(x * x + y * y)) :
    |x' / √(x' * x' + y' * y') - x / √(x * x + y * y)| ≤ 21 / 10 * u * |x / √(x * x + y * y)| := by
  have sq : ∀ z z' : ℝ, |z' - z| ≤ u * |z| → (1 - u) * (1 - u) * (z * z) ≤ z' * z' ∧ z' * z' ≤ (1 + u) * (1 + u) * (z * z) := by
    intro z z' h
    have h1 := abs_sub_abs_le_abs_sub z' z
    have h2 := abs_sub_abs_le_abs_sub z z'
    rw [abs_sub_comm] at h2
    have z0 := abs_nonneg z
    have z0' := abs_nonneg z'
    rw [← abs_mul_abs_self z, ← abs_mul_abs_self z']
    have a1 : (1 - u) * |z| ≤ |z'| := by linarith
    have a2 : |z'| ≤ (1 + u) * |z| := by linarith
    have b1 := mul_self_le_mul_self (mul_nonneg (by linarith) z0) a1
    have b2 := mul_self_le_mul_self z0' a2
    constructor <;> nlinarith
  obtain ⟨x1, x2⟩ := sq x x' hx
  obtain ⟨y1, y2⟩ := sq y y' hy
  have hr1 : (1 - u) * √(x * x + y * y) ≤ √(x' * x' + y' * y') := by
    apply Real.le_sqrt_of_sq_le
    rw [mul_pow, Real.sq_sqrt (add_nonneg (mul_self_nonneg x) (mul_self_nonneg y))]
    nlinarith
  have hr2 : √(x' * x' + y' * y') ≤ (1 + u) * √(x * x + y * y) := by
    refine Real.sqrt_le_iff.mpr ⟨mul_nonneg (by linarith) hr.le, ?_⟩
    rw [mul_pow, Real.sq_sqrt (add_nonneg (mul_self_nonneg x) (mul_self_nonneg y))]
    nlinarith
  generalize √(x * x + y * y) = r at *
  generalize √(x' * x' + y' * y') = r' at *
  have hr' : 0 < r' := lt_of_lt_of_le (mul_pos (by linarith) hr) hr1
  have e : x' / r' - x / r = (x' - x) / r' + x * (r - r') / (r * r') := by field_simp; ring
  rw [e]
  refine (abs_add_le _ _).trans ?_
  rw [abs_div, abs_div, abs_mul, abs_of_pos hr', abs_of_pos (mul_pos hr hr'), abs_div, abs_of_pos hr]
  have hrr : |r - r'| ≤ u * r := abs_le.mpr ⟨by linarith, by linarith⟩
  have b1 : |x' - x| / r' ≤ u * |x| / r' := by gcongr
  have b2 : |x| * |r - r'| / (r * r') ≤ |x| * (u * r) / (r * r') := by gcongr
  have e2 : |x| * (u * r) / (r * r') = u * |x| / r' := by field_simp
  rw [e2] at b2
  have b3 : u * |x| / r' ≤ 21 / 20 * (u * (|x| / r)) := by
    rw [div_le_iff₀ hr']
    have : 21 / 20 * (u * (|x| / r)) * ((1 - u) * r) ≤ 21 / 20 * (u * (|x| / r)) * r' :=
      mul_le_mul_of_nonneg_left hr1 (by positivity)
    have e3 : 21 / 20 * (u * (|x| / r)) * ((1 - u) * r) = 21 / 20 * (1 - u) * (u * |x|) := by field_simp
    have hux : 0 ≤ u * |x| := by positivity
    nlinarith
  linarith

/-- The unit vector along the computed difference of two points is near the unit vector along the exact difference. -/
theorem near_diff {x y x' y' : ℝ} {n : Vec2 Double} (hx : |x' - x| ≤ uR * |x|) (hy : |y' - y| ≤ uR * |y|)
    (hr : 0 < √(x * x + y * y)) (h : NearDir x' y' n) : NearVec 8 (x / √(x * x + y * y)) (y / √(x * x + y * y)) n := by
  have d1 := dir_shift uR_pos.le uR_small hx hy hr
  have d2 := dir_shift uR_pos.le uR_small hy hx (by rw [add_comm]; exact hr)
  rw [add_comm (y' * y'), add_comm (y * y)] at d2
  have hu := uR_pos
  have hu' := uR_small
  have one : ∀ p c c' : ℝ, |c' - c| ≤ 21 / 10 * uR * |c| → |p - c'| ≤ 5 * uR * |c'| + ηR → |p - c| ≤ 8 * uR * |c| + ηR := by
    intro p c c' h1 h2
    have t := abs_sub_le p c' c
    have s := abs_sub_abs_le_abs_sub c' c
    have c0 := abs_nonneg c
    have a1 : uR * |c'| ≤ uR * (|c| + 21 / 10 * uR * |c|) := mul_le_mul_of_nonneg_left (by linarith) hu.le
    have a2 : uR * (uR * |c|) ≤ 1 / 1000 * (uR * |c|) := mul_le_mul_of_nonneg_right hu' (mul_nonneg hu.le c0)
    have a3 := mul_nonneg hu.le c0
    linarith
  exact ⟨one _ _ _ d1 h.px, one _ _ _ d2 h.py⟩

/-- `distance_to` of a line whose direction is near the unit vector `(c, s)` and that was put through `a`. -/
theorem line_dist {l : Line Double} {a p : Vec2 Double} {c s M : ℝ} (hcs : c * c + s * s = 1) (hd : NearVec 8 c s l.direction)
    (hn : l.normal = ⟨l.direction.y, -l.direction.x⟩) (ho : l.offset = a.dot l.normal) (ha : Within M a) (hp : Within M p)
    (hM : M ≤ 2 ^ 500) :
    |(l.distanceTo p).real - ((p.x.real - a.x.real) * s - (p.y.real - a.y.real) * c)| ≤ 41 * uR * M + 9 * ηR := by
  have hcs' : s * s + -c * -c = 1 := by linarith
  have hnn : NearVec 8 s (-c) l.normal := by rw [hn]; exact hd.right
  have hM2 : M ≤ 2 ^ 1000 := hM.trans (pow_le_real (by norm_num))
  have dp := dot_double hcs' (rel_self p.x.real) (rel_self p.y.real) hnn (hp.1.trans hM2) (hp.2.trans hM2)
  have da := dot_double hcs' (rel_self a.x.real) (rel_self a.y.real) hnn (ha.1.trans hM2) (ha.2.trans hM2)
  rw [← ho] at da
  have np := norm_within hp.1 hp.2
  have na := norm_within ha.1 ha.2
  have cp := unit_dot_le (x := p.x.real) (y := p.y.real) hcs'
  have ca := unit_dot_le (x := a.x.real) (y := a.y.real) hcs'
  have rp := Real.sqrt_nonneg (p.x.real * p.x.real + p.y.real * p.y.real)
  have ra := Real.sqrt_nonneg (a.x.real * a.x.real + a.y.real * a.y.real)
  have tp := (abs_add_le (p.x.real * s) (p.y.real * -c)).trans cp
  have ta := (abs_add_le (a.x.real * s) (a.y.real * -c)).trans ca
  have hdef : l.distanceTo p = p.dot l.normal - l.offset := by rw [Line.distanceTo, Vec2.copy_fl]
  rw [hdef, show (p.x.real - a.x.real) * s - (p.y.real - a.y.real) * c =
    (p.x.real * s + p.y.real * -c) - (a.x.real * s + a.y.real * -c) by ring]
  generalize p.x.real * s + p.y.real * -c = P at *
  generalize a.x.real * s + a.y.real * -c = A at *
  have hu := uR_pos
  have hu' := uR_small
  have hη := ηR_small
  have hη0 := ηR_pos
  have M0 : 0 ≤ M := (abs_nonneg _).trans ha.1
  have uM : 0 ≤ uR * M := mul_nonneg hu.le M0
  have uuM : uR * (uR * M) ≤ 1 / 1000 * (uR * M) := mul_le_mul_of_nonneg_right hu' uM
  have uM' : uR * M ≤ 1 / 1000 * M := mul_le_mul_of_nonneg_right hu' M0
  have bp : |(p.dot l.normal).real - P| ≤ 18 * uR * M + 4 * ηR := by
    refine dp.trans ?_
    have := mul_le_mul_of_nonneg_left np hu.le
    linarith
  have ba : |l.offset.real - A| ≤ 18 * uR * M + 4 * ηR := by
    refine da.trans ?_
    have := mul_le_mul_of_nonneg_left na hu.le
    linarith
  have bd : |(p.dot l.normal).real - l.offset.real - (P - A)| ≤ 36 * uR * M + 8 * ηR := by
    rw [show (p.dot l.normal).real - l.offset.real - (P - A) = ((p.dot l.normal).real - P) - (l.offset.real - A) by ring]
    exact (abs_sub _ _).trans (by linarith)
  have bD : |(p.dot l.normal).real - l.offset.real| ≤ 4 * M + 9 * ηR := by
    have h1 := abs_sub_abs_le_abs_sub ((p.dot l.normal).real - l.offset.real) (P - A)
    have h2 := abs_sub P A
    linarith
  have hS := sub_ok (p.dot l.normal) l.offset (bD.trans (by
    have h1 : (2 : ℝ) ^ 1023 = 2 ^ 523 * 2 ^ 500 := by rw [← pow_add]
    have h2 : (16 : ℝ) ≤ 2 ^ 523 := by
      calc (16 : ℝ) = 2 ^ 4 := by norm_num
        _ ≤ 2 ^ 523 := pow_le_real (by norm_num)
    have h3 : (1 : ℝ) ≤ 2 ^ 500 := one_le_pow₀ (by norm_num)
    have h4 : 16 * (2 : ℝ) ^ 500 ≤ 2 ^ 523 * 2 ^ 500 := mul_le_mul_of_nonneg_right h2 (by positivity)
    rw [h1]
    refine le_trans ?_ h4
    clear h1 h2 h4 hM2
    generalize (2 : ℝ) ^ 500 = T at *
    linarith))
  have hS' : uR * |(p.dot l.normal).real - l.offset.real| ≤ uR * (4 * M + 9 * ηR) := mul_le_mul_of_nonneg_left bD hu.le
  have uη : uR * ηR ≤ 1 / 1000 * ηR := mul_le_mul_of_nonneg_right hu' hη0
  have t := abs_sub_le (p.dot l.normal - l.offset).real ((p.dot l.normal).real - l.offset.real) (P - A)
  clear hM hM2
  linarith

/-- `2 ^ -500`, below which lengths are not computed well. -/
noncomputable def θR : ℝ := 1 / 2 ^ 500

theorem θR_pos : 0 < θR := by unfold θR; positivity
theorem θR_sq : 100 * ηR ≤ uR * (θR * θR) := pow_eq_small
theorem θR_one : θR ≤ 1 / 1000 := by
  unfold θR
  calc 1 / (2 : ℝ) ^ 500 ≤ 1 / 2 ^ 10 := inv_pow_le (by norm_num)
    _ ≤ 1 / 1000 := by norm_num
theorem ηR_θR : 100 * ηR ≤ θR := by
  have h := θR_sq
  have h1 := θR_one
  have h2 := θR_pos
  have h3 : uR * (θR * θR) ≤ 1 * (1 * θR) := by
    have := uR_small; have := uR_pos
    exact mul_le_mul (by linarith) (mul_le_mul_of_nonneg_right (by linarith) h2.le) (by positivity) (by norm_num)
  linarith

/-- The sizes that occur do not overflow. -/
theorem pow_room {M K : ℝ} {n : ℕ} (hM : M ≤ 2 ^ 500) (hK : K ≤ 500 * M + 1) (hn : 510 ≤ n) : K ≤ 2 ^ n := by
  have h3 : (1 : ℝ) ≤ 2 ^ 500 := one_le_pow₀ (by norm_num)
  have h1 : (2 : ℝ) ^ 510 = 1024 * 2 ^ 500 := by rw [show (510 : ℕ) = 10 + 500 by norm_num, pow_add]; norm_num
  refine le_trans ?_ (pow_le_real hn)
  rw [h1]
  clear h1
  generalize (2 : ℝ) ^ 500 = T at *
  linarith

variable [PyMath Double] [SqrtOk]

/-- `length`, computed. -/
theorem length_double (t : Vec2 Double) (hx : |t.x.real| ≤ 2 ^ 510) (hy : |t.y.real| ≤ 2 ^ 510) :
    |t.length.real - √(t.x.real * t.x.real + t.y.real * t.y.real)| ≤
      31 / 10 * uR * √(t.x.real * t.x.real + t.y.real * t.y.real) + 2 * θR := by
  obtain ⟨a, b, ha, hb, ht, ht0, htf⟩ := length2_parts t hx hy
  exact len_abs uR_pos uR_small ηR_pos ha hb ht ht0 (length_parts ht0 htf) θR_pos.le θR_sq

/-- The length of a vector that is near an exact one. -/
theorem length_near {t : Vec2 Double} {x y N e : ℝ} (hx : |t.x.real - x| ≤ e) (hy : |t.y.real - y| ≤ e) (bx : |x| ≤ N)
    (by' : |y| ≤ N) (hN : N + e ≤ 2 ^ 510) :
    |t.length.real - √(x * x + y * y)| ≤ 31 / 10 * uR * (3 / 2 * (N + e)) + 2 * θR + 2 * e := by
  have b1 : |t.x.real| ≤ N + e := by
    have := abs_sub_abs_le_abs_sub t.x.real x; linarith
  have b2 : |t.y.real| ≤ N + e := by
    have := abs_sub_abs_le_abs_sub t.y.real y; linarith
  have h1 := length_double t (b1.trans hN) (b2.trans hN)
  have h2 := norm_lip t.x.real t.y.real x y
  have h3 := norm_within b1 b2
  have h4 := mul_le_mul_of_nonneg_left h3 uR_pos.le
  have t1 := abs_sub_le t.length.real (√(t.x.real * t.x.real + t.y.real * t.y.real)) (√(x * x + y * y))
  clear hN
  linarith

/-- `distance_to` of a ray whose direction is near the unit vector `(c, s)`. -/
theorem ray_dist {l : Ray Double} {p : Vec2 Double} {c s M D : ℝ} (hcs : c * c + s * s = 1) (hd : NearVec 8 c s l.direction)
    (hn : l.normal = ⟨l.direction.y, -l.direction.x⟩) (ha : Within M l.anchor) (hp : Within M p) (hM : M ≤ 2 ^ 500)
    (h1 : 0 ≤ (p.x.real - l.anchor.x.real) * c + (p.y.real - l.anchor.y.real) * s →
      D = |(p.x.real - l.anchor.x.real) * s - (p.y.real - l.anchor.y.real) * c|)
    (h2 : (p.x.real - l.anchor.x.real) * c + (p.y.real - l.anchor.y.real) * s < 0 →
      D = √((p.x.real - l.anchor.x.real) * (p.x.real - l.anchor.x.real) +
        (p.y.real - l.anchor.y.real) * (p.y.real - l.anchor.y.real))) :
    |(l.distanceTo p).real - D| ≤ 72 * uR * M + 6 * θR := by
  have hcs' : s * s + -c * -c = 1 := by linarith
  have hnn : NearVec 8 s (-c) l.normal := by rw [hn]; exact hd.right
  have hu := uR_pos
  have hu' := uR_small
  have hη0 := ηR_pos
  have hηθ := ηR_θR
  have hθ := θR_pos
  have M0 : 0 ≤ M := (abs_nonneg _).trans ha.1
  have bx : |p.x.real - l.anchor.x.real| ≤ 2 * M := (abs_sub _ _).trans (by linarith [hp.1, ha.1])
  have by' : |p.y.real - l.anchor.y.real| ≤ 2 * M := (abs_sub _ _).trans (by linarith [hp.2, ha.2])
  have tx := sub_ok p.x l.anchor.x (pow_room hM (bx.trans (by linarith)) (by norm_num))
  have ty := sub_ok p.y l.anchor.y (pow_room hM (by'.trans (by linarith)) (by norm_num))
  have hdef : l.distanceTo p = if l.direction.dot (p - l.anchor) ≥ 0 then pyabs ((p - l.anchor).dot l.normal)
    else (p - l.anchor).length := by
    rw [Ray.distanceTo, Vec2.copy_fl]
  have tx' : |(p - l.anchor).x.real - (p.x.real - l.anchor.x.real)| ≤ uR * |p.x.real - l.anchor.x.real| := tx
  have ty' : |(p - l.anchor).y.real - (p.y.real - l.anchor.y.real)| ≤ uR * |p.y.real - l.anchor.y.real| := ty
  generalize p.x.real - l.anchor.x.real = x at *
  generalize p.y.real - l.anchor.y.real = y at *
  have uM : 0 ≤ uR * M := mul_nonneg hu.le M0
  have uM' : uR * M ≤ 1 / 1000 * M := mul_le_mul_of_nonneg_right hu' M0
  have uuM : uR * (uR * M) ≤ 1 / 1000 * (uR * M) := mul_le_mul_of_nonneg_right hu' uM
  have ux : uR * |x| ≤ uR * (2 * M) := mul_le_mul_of_nonneg_left bx hu.le
  have uy : uR * |y| ≤ uR * (2 * M) := mul_le_mul_of_nonneg_left by' hu.le
  have b1 : |(p - l.anchor).x.real| ≤ 3 * M := by
    have := abs_sub_abs_le_abs_sub (p - l.anchor).x.real x; linarith
  have b2 : |(p - l.anchor).y.real| ≤ 3 * M := by
    have := abs_sub_abs_le_abs_sub (p - l.anchor).y.real y; linarith
  have nr := norm_within bx by'
  have dσ := dot_double hcs tx' ty' hd (pow_room hM (b1.trans (by linarith)) (by norm_num))
    (pow_room hM (b2.trans (by linarith)) (by norm_num))
  rw [dot_comm_double] at dσ
  have dκ := dot_double hcs' tx' ty' hnn (pow_room hM (b1.trans (by linarith)) (by norm_num))
    (pow_room hM (b2.trans (by linarith)) (by norm_num))
  have hN : 2 * M + 2 * (uR * M) ≤ 2 ^ 510 := pow_room hM (by linarith) le_rfl
  have dL := length_near (tx'.trans (by linarith : _ ≤ 2 * (uR * M))) (ty'.trans (by linarith : _ ≤ 2 * (uR * M))) bx by' hN
  have nr' := mul_le_mul_of_nonneg_left nr hu.le
  have hrr := Real.mul_self_sqrt (add_nonneg (mul_self_nonneg x) (mul_self_nonneg y))
  have hr0 := Real.sqrt_nonneg (x * x + y * y)
  clear hM hN
  have key := ray_cases (r := √(x * x + y * y)) (σ := x * c + y * s) (κ := x * s - y * c)
    (σ' := (l.direction.dot (p - l.anchor)).real) (K := |((p - l.anchor).dot l.normal).real|)
    (L := (p - l.anchor).length.real) (δ := 36 * uR * M + 3 * θR) (D := D) (D' := (l.distanceTo p).real) hr0
    (by rw [hrr]; linear_combination (-(x * x) - y * y) * hcs) (dσ.trans (by linarith))
    (by
      rw [show x * s + y * -c = x * s - y * c by ring] at dκ
      exact (abs_abs_sub_abs_le _ _).trans (dκ.trans (by linarith)))
    (dL.trans (by linarith)) ⟨h1, h2⟩
    ⟨fun h => by
      have : l.direction.dot (p - l.anchor) ≥ 0 := real_le.mp (by rw [real_zero]; exact h)
      rw [hdef, if_pos this, pyabs_real],
     fun h => by
      have : ¬ l.direction.dot (p - l.anchor) ≥ 0 := not_le.mpr (real_lt.mp (by rw [real_zero]; exact h))
      rw [hdef, if_neg this]⟩
  linarith

/-- A coordinate of the end of a segment, computed. -/
theorem end_coord {A d L : Double} {c l M : ℝ} (hc : |c| ≤ 1) (hd : |d.real - c| ≤ 8 * uR * |c| + ηR) (hl : 0 ≤ l)
    (hlM : l ≤ 3 / 2 * M) (hL : |L.real - l| ≤ 31 / 10 * uR * l) (hA : |A.real| ≤ M) (hM : M ≤ 2 ^ 500) :
    |(A + d * L).real - (A.real + l * c)| ≤ 22 * uR * M + 4 * ηR := by
  have hu := uR_pos
  have hu' := uR_small
  have hη := ηR_small
  have hη0 := ηR_pos
  have M0 : 0 ≤ M := (abs_nonneg _).trans hA
  have ul : 0 ≤ uR * l := mul_nonneg hu.le hl
  have ul' : uR * l ≤ uR * (3 / 2 * M) := mul_le_mul_of_nonneg_left hlM hu.le
  have uM : 0 ≤ uR * M := mul_nonneg hu.le M0
  have uM' : uR * M ≤ 1 / 1000 * M := mul_le_mul_of_nonneg_right hu' M0
  have uul : uR * (uR * l) ≤ 1 / 1000 * (uR * l) := mul_le_mul_of_nonneg_right hu' ul
  have uuM : uR * (uR * M) ≤ 1 / 1000 * (uR * M) := mul_le_mul_of_nonneg_right hu' uM
  have uη : uR * ηR ≤ 1 / 1000 * ηR := mul_le_mul_of_nonneg_right hu' hη0
  have lη : l * ηR ≤ 1 / 1000 * (uR * l) := by
    have := mul_le_mul_of_nonneg_left hη hl; linarith
  have c0 := abs_nonneg c
  have uc : uR * |c| ≤ uR * 1 := mul_le_mul_of_nonneg_left hc hu.le
  have bd : |d.real| ≤ 101 / 100 := by
    have := abs_sub_abs_le_abs_sub d.real c; linarith
  have e1 : |d.real * L.real - l * c| ≤ 112 / 10 * (uR * l) := by
    rw [show d.real * L.real - l * c = d.real * (L.real - l) + l * (d.real - c) by ring]
    refine (abs_add_le _ _).trans ?_
    rw [abs_mul, abs_mul, abs_of_nonneg hl]
    have h1 : |d.real| * |L.real - l| ≤ 101 / 100 * (31 / 10 * uR * l) :=
      mul_le_mul bd hL (abs_nonneg _) (by norm_num)
    have h2 : l * |d.real - c| ≤ l * (8 * uR + ηR) := mul_le_mul_of_nonneg_left (by linarith) hl
    linarith
  have lc : |l * c| ≤ l := by rw [abs_mul, abs_of_nonneg hl]; exact mul_le_of_le_one_right hl hc
  have b1 : |d.real * L.real| ≤ 2 * M := by
    have := abs_sub_abs_le_abs_sub (d.real * L.real) (l * c); linarith
  have hG := mul_ok d L (pow_room hM (b1.trans (by linarith)) (by norm_num))
  have ub1 : uR * |d.real * L.real| ≤ uR * (2 * M) := mul_le_mul_of_nonneg_left b1 hu.le
  have ub2 : uR * |d.real * L.real| ≤ uR * (l + 112 / 10 * (uR * l)) := by
    refine mul_le_mul_of_nonneg_left ?_ hu.le
    have := abs_sub_abs_le_abs_sub (d.real * L.real) (l * c); linarith
  have e2 : |(d * L).real - l * c| ≤ 123 / 10 * (uR * l) + ηR := by
    have := abs_sub_le (d * L).real (d.real * L.real) (l * c); linarith
  have b2 : |A.real + (d * L).real| ≤ 3 * M + ηR := by
    have h1 := abs_add_le A.real (d * L).real
    have h2 := abs_sub_abs_le_abs_sub (d * L).real (l * c)
    linarith
  have hS := add_ok A (d * L) (pow_room hM (b2.trans (by linarith)) (by norm_num))
  have ub3 : uR * |A.real + (d * L).real| ≤ uR * (3 * M + ηR) := mul_le_mul_of_nonneg_left b2 hu.le
  have t := abs_sub_le (A + d * L).real (A.real + (d * L).real) (A.real + l * c)
  rw [show A.real + (d * L).real - (A.real + l * c) = (d * L).real - l * c by ring] at t
  clear hM
  linarith

/-- `distance_to` of a segment whose direction is near the unit vector `(c, s)` and whose length is near `k`. -/
theorem seg_dist {l : LineSegment Double} {p : Vec2 Double} {c s k M D : ℝ} (hcs : c * c + s * s = 1)
    (hd : NearVec 8 c s l.direction) (hn : l.normal = ⟨l.direction.y, -l.direction.x⟩) (hk : 0 ≤ k) (hkM : k ≤ 3 / 2 * M)
    (hl : |l.length.real - k| ≤ 31 / 10 * uR * k) (ha : Within M l.anchor) (hp : Within M p) (hM : M ≤ 2 ^ 500)
    (h1 : (p.x.real - l.anchor.x.real) * c + (p.y.real - l.anchor.y.real) * s < 0 →
      D = √((p.x.real - l.anchor.x.real) * (p.x.real - l.anchor.x.real) +
        (p.y.real - l.anchor.y.real) * (p.y.real - l.anchor.y.real)))
    (h2 : 0 ≤ (p.x.real - l.anchor.x.real) * c + (p.y.real - l.anchor.y.real) * s →
      k < (p.x.real - l.anchor.x.real) * c + (p.y.real - l.anchor.y.real) * s →
      D = √((p.x.real - (l.anchor.x.real + k * c)) * (p.x.real - (l.anchor.x.real + k * c)) +
        (p.y.real - (l.anchor.y.real + k * s)) * (p.y.real - (l.anchor.y.real + k * s))))
    (h3 : 0 ≤ (p.x.real - l.anchor.x.real) * c + (p.y.real - l.anchor.y.real) * s →
      (p.x.real - l.anchor.x.real) * c + (p.y.real - l.anchor.y.real) * s ≤ k →
      D = |(p.x.real - l.anchor.x.real) * s - (p.y.real - l.anchor.y.real) * c|) :
    |(l.distanceTo p).real - D| ≤ 112 * uR * M + 6 * θR := by
  have hcs' : s * s + -c * -c = 1 := by linarith
  have c1 := unit_comp hcs
  have s1 : |s| ≤ 1 := unit_comp (c := s) (s := c) (by linarith)
  have hnn : NearVec 8 s (-c) l.normal := by rw [hn]; exact hd.right
  have hu := uR_pos
  have hu' := uR_small
  have hη0 := ηR_pos
  have hηθ := ηR_θR
  have hθ := θR_pos
  have hθ1 := θR_one
  have M0 : 0 ≤ M := (abs_nonneg _).trans ha.1
  have uM : 0 ≤ uR * M := mul_nonneg hu.le M0
  have uM' : uR * M ≤ 1 / 1000 * M := mul_le_mul_of_nonneg_right hu' M0
  have uuM : uR * (uR * M) ≤ 1 / 1000 * (uR * M) := mul_le_mul_of_nonneg_right hu' uM
  have uη : uR * ηR ≤ 1 / 1000 * ηR := mul_le_mul_of_nonneg_right hu' hη0
  have uk : uR * k ≤ uR * (3 / 2 * M) := mul_le_mul_of_nonneg_left hkM hu.le
  have uk' : uR * k ≤ 1 / 1000 * k := mul_le_mul_of_nonneg_right hu' hk
  have bx : |p.x.real - l.anchor.x.real| ≤ 2 * M := (abs_sub _ _).trans (by linarith [hp.1, ha.1])
  have by' : |p.y.real - l.anchor.y.real| ≤ 2 * M := (abs_sub _ _).trans (by linarith [hp.2, ha.2])
  have tx' : |(p - l.anchor).x.real - (p.x.real - l.anchor.x.real)| ≤ uR * |p.x.real - l.anchor.x.real| :=
    sub_ok p.x l.anchor.x (pow_room hM (bx.trans (by linarith)) (by norm_num))
  have ty' : |(p - l.anchor).y.real - (p.y.real - l.anchor.y.real)| ≤ uR * |p.y.real - l.anchor.y.real| :=
    sub_ok p.y l.anchor.y (pow_room hM (by'.trans (by linarith)) (by norm_num))
  -- the end
  have ex : |l.end'.x.real - (l.anchor.x.real + k * c)| ≤ 22 * uR * M + 4 * ηR := end_coord c1 hd.1 hk hkM hl ha.1 hM
  have ey : |l.end'.y.real - (l.anchor.y.real + k * s)| ≤ 22 * uR * M + 4 * ηR := end_coord s1 hd.2 hk hkM hl ha.2 hM
  have ends : ∀ P E : Double, ∀ A g : ℝ, |P.real| ≤ M → |A| ≤ M → |g| ≤ 1 → |E.real - (A + k * g)| ≤ 22 * uR * M + 4 * ηR →
      |P.real - (A + k * g)| ≤ 7 / 2 * M ∧ |(P - E).real - (P.real - (A + k * g))| ≤ 26 * (uR * M) + 5 * ηR := by
    intro P E A g hP hA hg hE
    have lc : |k * g| ≤ k := by rw [abs_mul, abs_of_nonneg hk]; exact mul_le_of_le_one_right hk hg
    have b0 : |A + k * g| ≤ 5 / 2 * M := (abs_add_le _ _).trans (by linarith)
    have b1 : |P.real - (A + k * g)| ≤ 7 / 2 * M := (abs_sub _ _).trans (by linarith)
    have b2 : |P.real - E.real| ≤ 36 / 10 * M + 4 * ηR := by
      have h1 := abs_sub_le P.real (A + k * g) E.real
      rw [abs_sub_comm (A + k * g)] at h1
      linarith
    have hS := sub_ok P E (pow_room hM (b2.trans (by linarith)) (by norm_num))
    have hS' : uR * |P.real - E.real| ≤ uR * (36 / 10 * M + 4 * ηR) := mul_le_mul_of_nonneg_left b2 hu.le
    refine ⟨b1, ?_⟩
    have t := abs_sub_le (P - E).real (P.real - E.real) (P.real - (A + k * g))
    rw [show P.real - E.real - (P.real - (A + k * g)) = -(E.real - (A + k * g)) by ring, abs_neg] at t
    clear hM
    linarith
  obtain ⟨nx, fx⟩ := ends p.x l.end'.x l.anchor.x.real c hp.1 ha.1 c1 ex
  obtain ⟨ny, fy⟩ := ends p.y l.end'.y l.anchor.y.real s hp.2 ha.2 s1 ey
  have fx' : |(p - l.end').x.real - (p.x.real - (l.anchor.x.real + k * c))| ≤ 26 * (uR * M) + 5 * ηR := fx
  have fy' : |(p - l.end').y.real - (p.y.real - (l.anchor.y.real + k * s))| ≤ 26 * (uR * M) + 5 * ηR := fy
  have dL2 := length_near fx' fy' nx ny (pow_room hM (by linarith) le_rfl)
  clear ends fx fy fx' fy' ex ey
  have hdef : l.distanceTo p = if l.direction.dot (p - l.anchor) < 0 then (p - l.anchor).length
      else if l.direction.dot (p - l.anchor) > l.length then (p - l.end').length
      else pyabs ((p - l.anchor).dot l.normal) := by
    rw [LineSegment.distanceTo, Vec2.copy_fl]
  rw [show p.x.real - (l.anchor.x.real + k * c) = p.x.real - l.anchor.x.real - k * c by ring,
    show p.y.real - (l.anchor.y.real + k * s) = p.y.real - l.anchor.y.real - k * s by ring] at dL2 h2
  clear nx ny
  generalize p.x.real - l.anchor.x.real = x at *
  generalize p.y.real - l.anchor.y.real = y at *
  have ux : uR * |x| ≤ uR * (2 * M) := mul_le_mul_of_nonneg_left bx hu.le
  have uy : uR * |y| ≤ uR * (2 * M) := mul_le_mul_of_nonneg_left by' hu.le
  have b1 : |(p - l.anchor).x.real| ≤ 3 * M := by
    have := abs_sub_abs_le_abs_sub (p - l.anchor).x.real x; linarith
  have b2 : |(p - l.anchor).y.real| ≤ 3 * M := by
    have := abs_sub_abs_le_abs_sub (p - l.anchor).y.real y; linarith
  have nr := norm_within bx by'
  have dσ := dot_double hcs tx' ty' hd (pow_room hM (b1.trans (by linarith)) (by norm_num))
    (pow_room hM (b2.trans (by linarith)) (by norm_num))
  rw [dot_comm_double] at dσ
  have dκ := dot_double hcs' tx' ty' hnn (pow_room hM (b1.trans (by linarith)) (by norm_num))
    (pow_room hM (b2.trans (by linarith)) (by norm_num))
  have dL := length_near (tx'.trans (by linarith : _ ≤ 2 * (uR * M))) (ty'.trans (by linarith : _ ≤ 2 * (uR * M))) bx by'
    (pow_room hM (by linarith) le_rfl)
  have nr' := mul_le_mul_of_nonneg_left nr hu.le
  have hrr := Real.mul_self_sqrt (add_nonneg (mul_self_nonneg x) (mul_self_nonneg y))
  have hr0 := Real.sqrt_nonneg (x * x + y * y)
  have hrr2 := Real.mul_self_sqrt (add_nonneg (mul_self_nonneg (x - k * c)) (mul_self_nonneg (y - k * s)))
  have hr02 := Real.sqrt_nonneg ((x - k * c) * (x - k * c) + (y - k * s) * (y - k * s))
  have hdiff : |√(x * x + y * y) - √((x - k * c) * (x - k * c) + (y - k * s) * (y - k * s))| ≤ k := by
    have q1 := unit_dot_le (x := x) (y := y) hcs
    have q2 := unit_dot_le (x := x - k * c) (y := y - k * s) hcs
    have w1 : x * c + y * s ≤ √(x * x + y * y) :=
      ((le_abs_self _).trans (abs_add_le _ _)).trans q1
    have w2 : -((x - k * c) * c + (y - k * s) * s) ≤ √((x - k * c) * (x - k * c) + (y - k * s) * (y - k * s)) :=
      ((neg_le_abs _).trans (abs_add_le _ _)).trans q2
    have e2 : (x - k * c) * (x - k * c) + (y - k * s) * (y - k * s) =
        x * x + y * y - 2 * k * (x * c + y * s) + k * k := by linear_combination k * k * hcs
    rw [show (x - k * c) * c + (y - k * s) * s = x * c + y * s - k by linear_combination -k * hcs] at w2
    rw [e2] at hrr2 hr02 w2 ⊢
    clear dL dL2 dσ dκ nr nr' h1 h2 h3 q1 q2 e2
    generalize √(x * x + y * y - 2 * k * (x * c + y * s) + k * k) = r2 at *
    generalize √(x * x + y * y) = r at *
    generalize x * c + y * s = σ at *
    refine abs_le.mpr ⟨?_, ?_⟩
    · by_contra hc
      have hc : r + k < r2 := by linarith
      have := mul_self_lt_mul_self (by linarith) hc
      nlinarith [pyth_abs hr0 (σ := 0) (κ := r) (by ring)]
    · by_contra hc
      have hc : r2 + k < r := by linarith
      have := mul_self_lt_mul_self (by linarith) hc
      nlinarith
  clear hM
  have key := seg_cases (r := √(x * x + y * y)) (r2 := √((x - k * c) * (x - k * c) + (y - k * s) * (y - k * s)))
    (σ := x * c + y * s) (κ := x * s - y * c) (l := k) (l' := l.length.real)
    (σ' := (l.direction.dot (p - l.anchor)).real) (K := |((p - l.anchor).dot l.normal).real|)
    (L := (p - l.anchor).length.real) (L2 := (p - l.end').length.real) (δ := 36 * uR * M + θR) (δ' := 5 * uR * M)
    (δ1 := 71 * uR * M + 3 * θR) (D := D) (D' := (l.distanceTo p).real) hr0
    (by rw [hrr]; linear_combination (-(x * x) - y * y) * hcs) hr02
    (by rw [hrr2]; linear_combination (-(x * x) - y * y + k * k) * hcs) hk hdiff
    (dσ.trans (by linarith)) (hl.trans (by linarith)) (by have := (abs_le.mp hl).1; linarith)
    (by
      rw [show x * s + y * -c = x * s - y * c by ring] at dκ
      exact (abs_abs_sub_abs_le _ _).trans (dκ.trans (by linarith)))
    (dL.trans (by linarith)) (dL2.trans (by linarith)) ⟨h1, h2, h3⟩
    ⟨fun h => by
      have : l.direction.dot (p - l.anchor) < 0 := real_lt.mp (by rw [real_zero]; exact h)
      rw [hdef, if_pos this],
     fun h h' => by
      have t1 : ¬ l.direction.dot (p - l.anchor) < 0 := not_lt.mpr (real_le.mp (by rw [real_zero]; exact h))
      have t2 : l.direction.dot (p - l.anchor) > l.length := real_lt.mp h'
      rw [hdef, if_neg t1, if_pos t2],
     fun h h' => by
      have t1 : ¬ l.direction.dot (p - l.anchor) < 0 := not_lt.mpr (real_le.mp (by rw [real_zero]; exact h))
      have t2 : ¬ l.direction.dot (p - l.anchor) > l.length := not_lt.mpr (real_le.mp h')
      rw [hdef, if_neg t1, if_neg t2, pyabs_real]⟩
  linarith

end Planar
