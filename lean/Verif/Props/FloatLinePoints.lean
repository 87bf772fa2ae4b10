import Verif.Props.FloatFromNormal
/- Property C78: the `points` of a line in double precision. -/
set_option linter.unusedSectionVars false
namespace Planar
open Spec
variable [PyMath Double] [SqrtOk]

/-- **C78** The two `points` of `Line(a, v)` are on the exact line through `a` along `v` up to `(M + 1) / 2 ^ 46`; `M` bounds the
coordinates of `a`. -/
theorem C78_line_points (eps : Double) (he : 1 / 2 ^ 500 ≤ eps.real) (he1 : eps.real ≤ 1 / 2) (a v : Vec2 Double)
    (hv : FiniteVec v) (M : ℝ) (hM : M ≤ 2 ^ 498) (ha : Within M a) (l : Line Double) (h : Line.new eps a v = .ok l) :
    |signedDist (toReal a) (toReal v) (toReal l.points.1)| ≤ (M + 1) / 2 ^ 46 + 1 / 2 ^ 490 ∧
    |signedDist (toReal a) (toReal v) (toReal l.points.2)| ≤ (M + 1) / 2 ^ 46 + 1 / 2 ^ 490 ∧
    Within (5 * M + 4) l.points.1 ∧ Within (5 * M + 4) l.points.2 := by
  obtain ⟨hd, hn, ho⟩ := new_line he he1 hv h
  have hcs := hd.unit
  have hvv := hd.vec.mono (k' := 8) (by norm_num)
  have sd : ∀ p : Vec2 Double, signedDist (toReal a) (toReal v) (toReal p) =
      (p.x.real * (v.y.real / √(v.x.real * v.x.real + v.y.real * v.y.real)) +
        p.y.real * -(v.x.real / √(v.x.real * v.x.real + v.y.real * v.y.real))) -
      (a.x.real * (v.y.real / √(v.x.real * v.x.real + v.y.real * v.y.real)) +
        a.y.real * -(v.x.real / √(v.x.real * v.x.real + v.y.real * v.y.real))) := by
    intro p
    show ((p.x.real - a.x.real) * v.y.real - (p.y.real - a.y.real) * v.x.real) /
      √(v.x.real * v.x.real + v.y.real * v.y.real) = _
    ring
  rw [sd, sd]
  generalize v.x.real / √(v.x.real * v.x.real + v.y.real * v.y.real) = c at *
  generalize v.y.real / √(v.x.real * v.x.real + v.y.real * v.y.real) = s at *
  have hcs' : s * s + -c * -c = 1 := by linarith
  have hnn : NearVec 8 s (-c) l.normal := by rw [hn]; exact hvv.right
  have M2 : M ≤ 2 ^ 1000 := hM.trans (pow_le_real (by norm_num))
  have da := dot_double hcs' (rel_self a.x.real) (rel_self a.y.real) hnn (ha.1.trans M2) (ha.2.trans M2)
  rw [← ho] at da
  have na := norm_within ha.1 ha.2
  have ta := (abs_add_le (a.x.real * s) (a.y.real * -c)).trans (unit_dot_le (x := a.x.real) (y := a.y.real) hcs')
  generalize a.x.real * s + a.y.real * -c = A at *
  have hu := uR_pos
  have hu' := uR_small
  have hη0 := ηR_pos
  have hη := ηR_small
  have hηθ := ηR_θR
  have hθ := θR_pos
  have hθ1 := θR_one
  have sθ := slackθ
  have M0 : 0 ≤ M := (abs_nonneg _).trans ha.1
  have uM : 0 ≤ uR * M := mul_nonneg hu.le M0
  have uM' : uR * M ≤ 1 / 1000 * M := mul_le_mul_of_nonneg_right hu' M0
  have una := mul_le_mul_of_nonneg_left na hu.le
  have uη : uR * ηR ≤ 1 / 1000 * ηR := mul_le_mul_of_nonneg_right hu' hη0
  have bo : |l.offset.real - A| ≤ 18 * uR * M + 4 * ηR := by clear hM M2; linarith
  have K0 : |l.offset.real| ≤ 2 * M + 4 * ηR := by
    have := abs_sub_abs_le_abs_sub l.offset.real A
    clear hM M2; linarith
  have KM : 2 * M + 4 * ηR ≤ 2 ^ 500 := by
    have e : (2 : ℝ) ^ 500 = 4 * 2 ^ 498 := by rw [show (500 : ℕ) = 2 + 498 by norm_num, pow_add]; norm_num
    have h1 : (1 : ℝ) ≤ 2 ^ 498 := one_le_pow₀ (by norm_num)
    rw [e]
    clear e M2
    generalize (2 : ℝ) ^ 498 = T at *
    linarith
  have c1 := unit_comp hcs
  have s1 : |s| ≤ 1 := unit_comp (c := s) (s := c) (by linarith)
  have c1' : |-c| ≤ 1 := by rw [abs_neg]; exact c1
  obtain ⟨x1, x2⟩ := along_coord s1 hnn.1 K0 KM
  obtain ⟨y1, y2⟩ := along_coord c1' hnn.2 K0 KM
  have hp1 : l.points.1 = ⟨l.normal.x * l.offset, l.normal.y * l.offset⟩ := rfl
  have hp2 : l.points.2 = ⟨l.normal.x * l.offset + l.direction.x, l.normal.y * l.offset + l.direction.y⟩ := rfl
  rw [hp1, hp2]
  simp only
  -- the product with a unit vector
  have dotle : ∀ {e f E : ℝ}, |e| ≤ E → |f| ≤ E → |e * s + f * -c| ≤ 2 * E := by
    intro e f E h1 h2
    refine (abs_add_le _ _).trans ?_
    rw [abs_mul, abs_mul]
    have := mul_le_of_le_one_right (abs_nonneg e) s1
    have := mul_le_of_le_one_right (abs_nonneg f) c1'
    linarith
  have b1 := dotle x1 y1
  rw [show ((l.normal.x * l.offset).real - s * l.offset.real) * s + ((l.normal.y * l.offset).real - -c * l.offset.real) * -c =
    ((l.normal.x * l.offset).real * s + (l.normal.y * l.offset).real * -c) - l.offset.real * (s * s + -c * -c) by ring, hcs',
    mul_one] at b1
  generalize hX : l.normal.x * l.offset = X at *
  generalize hY : l.normal.y * l.offset = Y at *
  have eM : (M + 1) / 2 ^ 46 = 128 * (uR * M) + 128 * uR := by unfold uR; ring
  have k1 : |X.real * s + Y.real * -c - A| ≤ 62 * (uR * M) + 7 * ηR := by
    have t := abs_sub_le (X.real * s + Y.real * -c) l.offset.real A
    clear hM M2 KM eM
    linarith
  have uc : uR * |c| ≤ uR * 1 := mul_le_mul_of_nonneg_left c1 hu.le
  have us : uR * |s| ≤ uR * 1 := mul_le_mul_of_nonneg_left s1 hu.le
  have d1 : |l.direction.x.real - c| ≤ 9 * uR := by have := hvv.1; clear hM M2 KM eM; linarith
  have d2 : |l.direction.y.real - s| ≤ 9 * uR := by have := hvv.2; clear hM M2 KM eM; linarith
  have d1' : |l.direction.x.real| ≤ 2 := by
    have := abs_sub_abs_le_abs_sub l.direction.x.real c; clear hM M2 KM eM; linarith
  have d2' : |l.direction.y.real| ≤ 2 := by
    have := abs_sub_abs_le_abs_sub l.direction.y.real s; clear hM M2 KM eM; linarith
  have bd := dotle d1 d2
  rw [show (l.direction.x.real - c) * s + (l.direction.y.real - s) * -c =
    l.direction.x.real * s + l.direction.y.real * -c by ring] at bd
  have M500 : M + 1 ≤ 2 ^ 500 := by
    have e : (2 : ℝ) ^ 500 = 4 * 2 ^ 498 := by rw [show (500 : ℕ) = 2 + 498 by norm_num, pow_add]; norm_num
    have h1 : (1 : ℝ) ≤ 2 ^ 498 := one_le_pow₀ (by norm_num)
    rw [e]
    clear e M2 eM KM
    generalize (2 : ℝ) ^ 498 = T at *
    linarith
  have sx : |X.real + l.direction.x.real| ≤ 4 * M + 3 := (abs_add_le _ _).trans (by clear hM M2 KM eM M500; linarith)
  have sy : |Y.real + l.direction.y.real| ≤ 4 * M + 3 := (abs_add_le _ _).trans (by clear hM M2 KM eM M500; linarith)
  have ax := add_ok X l.direction.x (pow_room M500 (sx.trans (by clear hM M2 KM eM M500; linarith)) (by norm_num))
  have ay := add_ok Y l.direction.y (pow_room M500 (sy.trans (by clear hM M2 KM eM M500; linarith)) (by norm_num))
  have ux : uR * |X.real + l.direction.x.real| ≤ uR * (4 * M + 3) := mul_le_mul_of_nonneg_left sx hu.le
  have uy : uR * |Y.real + l.direction.y.real| ≤ uR * (4 * M + 3) := mul_le_mul_of_nonneg_left sy hu.le
  have ax' : |(X + l.direction.x).real - (X.real + l.direction.x.real)| ≤ uR * (4 * M + 3) + ηR := by
    clear hM M2 KM eM M500; linarith
  have ay' : |(Y + l.direction.y).real - (Y.real + l.direction.y.real)| ≤ uR * (4 * M + 3) + ηR := by
    clear hM M2 KM eM M500; linarith
  have b2 := dotle ax' ay'
  have k2 : |(X + l.direction.x).real * s + (Y + l.direction.y).real * -c - A| ≤ 70 * (uR * M) + 24 * uR + 9 * ηR := by
    rw [show (X + l.direction.x).real * s + (Y + l.direction.y).real * -c - A =
      (((X + l.direction.x).real - (X.real + l.direction.x.real)) * s +
        ((Y + l.direction.y).real - (Y.real + l.direction.y.real)) * -c) +
      ((l.direction.x.real * s + l.direction.y.real * -c) + (X.real * s + Y.real * -c - A)) by ring]
    refine (abs_add_le _ _).trans ?_
    have := abs_add_le (l.direction.x.real * s + l.direction.y.real * -c) (X.real * s + Y.real * -c - A)
    clear hM M2 KM eM M500
    linarith
  have wx := abs_sub_abs_le_abs_sub (X + l.direction.x).real (X.real + l.direction.x.real)
  have wy := abs_sub_abs_le_abs_sub (Y + l.direction.y).real (Y.real + l.direction.y.real)
  rw [eM]
  clear hM M2 KM eM M500
  generalize (1 : ℝ) / 2 ^ 490 = z at *
  clear he
  refine ⟨by linarith, by linarith, ⟨?_, ?_⟩, ?_, ?_⟩
  · show |X.real| ≤ _; linarith
  · show |Y.real| ≤ _; linarith
  · show |(X + l.direction.x).real| ≤ _; linarith
  · show |(Y + l.direction.y).real| ≤ _; linarith

/-- **C78** So `Line(a, v)` contains its `points`, as computed, when `EPSILON` is above `(M + 1) / 2 ^ 43`. -/
theorem C78_line_contains_points (eps : Double) (he : 1 / 2 ^ 500 ≤ eps.real) (he1 : eps.real ≤ 1 / 2) (a v : Vec2 Double)
    (hv : FiniteVec v) (M : ℝ) (hM : (M + 1) / 2 ^ 43 < eps.real) (ha : Within M a) (l : Line Double)
    (h : Line.new eps a v = .ok l) :
    l.containsPoint eps l.points.1 = true ∧ l.containsPoint eps l.points.2 = true := by
  have M0 : 0 ≤ M := (abs_nonneg _).trans ha.1
  have hM' : M ≤ 2 ^ 43 := by
    have : (M + 1) / 2 ^ 43 ≤ 1 := by clear he; linarith
    rw [div_le_one (by positivity)] at this
    linarith
  have p1 : (2 : ℝ) ^ 43 ≤ 2 ^ 498 := pow_le_real (by norm_num)
  have p2 : 5 * M + 4 ≤ 2 ^ 500 := by
    refine le_trans (b := (2 : ℝ) ^ 46) ?_ (pow_le_real (by norm_num))
    clear he p1 hM
    norm_num at hM' ⊢
    linarith
  obtain ⟨k1, k2, w1, w2⟩ := C78_line_points eps he he1 a v hv M (hM'.trans p1) ha l h
  have wa : Within (5 * M + 4) a := ⟨ha.1.trans (by clear he p1 p2; linarith), ha.2.trans (by clear he p1 p2; linarith)⟩
  have z : (1 : ℝ) / 2 ^ 490 ≤ 1 / 2 ^ 47 := inv_pow_le (by norm_num)
  have g : (M + 1) / 2 ^ 46 + 1 / 2 ^ 490 < eps.real - ((5 * M + 4) / 2 ^ 46 + 1 / 2 ^ 490) := by
    have e1 : (M + 1) / 2 ^ 43 = 8 * (M + 1) / 2 ^ 46 := by ring
    have e2 : (1 : ℝ) / 2 ^ 47 = 1 / 2 * (1 / 2 ^ 46) := by ring
    rw [e1] at hM
    rw [e2] at z
    clear he p1 p2 hM' k1 k2 e1 e2
    generalize (1 : ℝ) / 2 ^ 490 = y at *
    have q : ∀ x : ℝ, x / 2 ^ 46 = x * (1 / 2 ^ 46) := fun x => by ring
    rw [q (8 * (M + 1))] at hM
    rw [q (M + 1), q (5 * M + 4)]
    have t0 : (0 : ℝ) < 1 / 2 ^ 46 := by positivity
    generalize (1 : ℝ) / 2 ^ 46 = t at *
    have := mul_nonneg M0 t0.le
    linarith
  exact ⟨((C78_line_sides eps he he1 a v _ hv _ p2 wa w1 l h).2.2 (lt_of_le_of_lt k1 g)).1,
    ((C78_line_sides eps he he1 a v _ hv _ p2 wa w2 l h).2.2 (lt_of_le_of_lt k2 g)).1⟩

/-- The line through (1, 2) along (3, 4), with EPSILON 1e-5. -/
example : ∃ l, Line.new (dbl (1 / 100000)) (dvec 1 2) (dvec 3 4) = .ok l ∧
    l.containsPoint (dbl (1 / 100000)) l.points.1 = true ∧ l.containsPoint (dbl (1 / 100000)) l.points.2 = true := by
  have n1 : (dbl 1).real = 1 := by simpa using dbl_int 1 (by norm_num)
  have n2 : (dbl 2).real = 2 := by simpa using dbl_int 2 (by norm_num)
  have n3 : (dbl 3).real = 3 := by simpa using dbl_int 3 (by norm_num)
  have n4 : (dbl 4).real = 4 := by simpa using dbl_int 4 (by norm_num)
  obtain ⟨h1, h2⟩ := dbl_eps
  have l5 : vlen (toReal (dvec 3 4)) = 5 := by
    rw [vlen_def]; simp only [dvec, n3, n4]
    rw [show (3 : ℝ) * 3 + 4 * 4 = 5 * 5 by norm_num, Real.sqrt_mul_self (by norm_num)]
  have he : 1 / 2 ^ 500 ≤ (dbl (1 / 100000)).real := (inv_pow_le (show 17 ≤ 500 by norm_num)).trans h1
  have he1 : (dbl (1 / 100000)).real ≤ 1 / 2 := h2.trans (by norm_num)
  have p7 : (8 : ℝ) ≤ 2 ^ 510 := by
    calc (8 : ℝ) = 2 ^ 3 := by norm_num
      _ ≤ 2 ^ 510 := pow_le_real (by norm_num)
  have wa : Within 2 (dvec 1 2) := by
    constructor
    · show |(dbl 1).real| ≤ 2; rw [n1]; norm_num
    · show |(dbl 2).real| ≤ 2; rw [n2]; norm_num
  have hf : FiniteVec (dvec 3 4) := by
    constructor
    · exact finite_of (M := 2 ^ 3) (pow_lt_real (by norm_num)) (by show |(dbl 3).real| ≤ _; rw [n3]; norm_num)
    · exact finite_of (M := 2 ^ 3) (pow_lt_real (by norm_num)) (by show |(dbl 4).real| ≤ _; rw [n4]; norm_num)
  obtain ⟨l, hl⟩ := ((C78_constructors _ he he1 (dvec 1 2) (dvec 3 4) hf).1 (by rw [l5]; clear he; norm_num at *; linarith)
    (by rw [l5]; refine le_trans ?_ p7; norm_num)).1
  refine ⟨l, hl, C78_line_contains_points _ he he1 _ _ hf 2 (lt_of_lt_of_le ?_ h1) wa l hl⟩
  norm_num

end Planar
