import Verif.Props.FloatLinePoints
import Verif.Spec.Along
/- Property C78: `point_behind`, `point_ahead`, `point_left` and `point_right` of rays and segments in double precision. -/
set_option linter.unusedSectionVars false
namespace Planar
open Spec
variable [PyMath Double] [SqrtOk]

omit [SqrtOk] [PyMath Double] in
theorem d_dot_swap (u v : Vec2 Double) : u.dot v = v.dot u := by
  simp only [Vec2.dot]; rw [f_mul_comm u.x, f_mul_comm u.y]

/-- How far along and across a computed direction a point is. -/
theorem d_along_across {a p d n : Vec2 Double} {x y M : ℝ} (hd : NearDir x y d) (hn : n = ⟨d.y, -d.x⟩) (ha : Within M a)
    (hp : Within M p) (hM : M ≤ 2 ^ 500) :
    |(d.dot (p - a)).real - ((p.x.real - a.x.real) * x + (p.y.real - a.y.real) * y) / √(x * x + y * y)| ≤
      36 * uR * M + 4 * ηR ∧
    |(n.dot (p - a)).real - ((p.x.real - a.x.real) * y - (p.y.real - a.y.real) * x) / √(x * x + y * y)| ≤
      36 * uR * M + 4 * ηR := by
  have hcs := hd.unit
  have hv := hd.vec.mono (k' := 8) (by norm_num)
  have M0 : 0 ≤ M := (abs_nonneg _).trans ha.1
  have d1 : |p.x.real - a.x.real| ≤ 2 * M := (abs_sub _ _).trans (by linarith [hp.1, ha.1])
  have d2 : |p.y.real - a.y.real| ≤ 2 * M := (abs_sub _ _).trans (by linarith [hp.2, ha.2])
  have e1 := sub_ok p.x a.x (pow_room hM (d1.trans (by linarith)) (by norm_num))
  have e2 := sub_ok p.y a.y (pow_room hM (d2.trans (by linarith)) (by norm_num))
  have hu := uR_pos
  have hu' := uR_small
  have big : ∀ {t s : ℝ}, |s| ≤ 2 * M → |t - s| ≤ uR * |s| → |t| ≤ 2 ^ 1000 := by
    intro t s h1 h2
    have h3 := abs_sub_abs_le_abs_sub t s
    have h4 : uR * |s| ≤ 1 / 1000 * |s| := mul_le_mul_of_nonneg_right hu' (abs_nonneg _)
    have h5 := abs_nonneg s
    exact pow_room hM (by clear hM; linarith) (by norm_num)
  have nw := mul_le_mul_of_nonneg_left (norm_within d1 d2) hu.le
  have fin : 12 * uR * √((p.x.real - a.x.real) * (p.x.real - a.x.real) + (p.y.real - a.y.real) * (p.y.real - a.y.real)) + 4 * ηR ≤
      36 * uR * M + 4 * ηR := by clear hM; linarith
  constructor
  · have := dot_double (t := p - a) hcs e1 e2 hv (big d1 e1) (big d2 e2)
    rw [d_dot_swap]
    refine le_trans (le_of_eq ?_) (this.trans fin)
    congr 1
    ring
  · have hcs' : y / √(x * x + y * y) * (y / √(x * x + y * y)) + -(x / √(x * x + y * y)) * -(x / √(x * x + y * y)) = 1 := by
      linarith
    have := dot_double (t := p - a) hcs' e1 e2 (by rw [hn]; exact hv.right : NearVec 8 _ _ n) (big d1 e1) (big d2 e2)
    rw [d_dot_swap]
    refine le_trans (le_of_eq ?_) (this.trans fin)
    congr 1
    ring

/-- **C78** The sides of `Ray(a, v)`. With `g = M / 2 ^ 46 + 2 ^ -490`: a point is behind if it is more than EPSILON behind the
anchor along `v`, and left (right) if it is not and is at least EPSILON to the left (right) of the exact line, in each case up to
`g`. -/
theorem C78_ray_sides (eps : Double) (he : 1 / 2 ^ 500 ≤ eps.real) (he1 : eps.real ≤ 1 / 2) (a v p : Vec2 Double)
    (hv : FiniteVec v) (M : ℝ) (hM : M ≤ 2 ^ 500) (ha : Within M a) (hp : Within M p) (r : Ray Double)
    (h : Ray.new eps a v = .ok r) (g : ℝ) (hg : g = M / 2 ^ 46 + 1 / 2 ^ 490) :
    (alongDist (toReal a) (toReal v) (toReal p) ≤ -(eps.real + g) →
      r.pointBehind eps p = true ∧ r.pointLeft eps p = false ∧ r.pointRight eps p = false) ∧
    (-eps.real + g < alongDist (toReal a) (toReal v) (toReal p) →
      r.pointBehind eps p = false ∧
      (signedDist (toReal a) (toReal v) (toReal p) ≤ -(eps.real + g) → r.pointLeft eps p = true) ∧
      (eps.real + g ≤ signedDist (toReal a) (toReal v) (toReal p) → r.pointRight eps p = true)) ∧
    (-eps.real + g < signedDist (toReal a) (toReal v) (toReal p) → r.pointLeft eps p = false) ∧
    (signedDist (toReal a) (toReal v) (toReal p) < eps.real - g → r.pointRight eps p = false) := by
  obtain ⟨hd, hn, ha'⟩ := new_ray he he1 hv h
  obtain ⟨k1, k2⟩ := d_along_across hd hn ha hp hM
  change |_ - alongDist (toReal a) (toReal v) (toReal p)| ≤ _ at k1
  change |_ - signedDist (toReal a) (toReal v) (toReal p)| ≤ _ at k2
  have slack : 36 * uR * M + 4 * ηR ≤ g := by
    have eM : M / 2 ^ 46 = 128 * (uR * M) := by unfold uR; ring
    have sθ := slackθ
    have hθ := θR_pos
    have hηθ := ηR_θR
    have hη0 := ηR_pos
    have uM : 0 ≤ uR * M := mul_nonneg uR_pos.le ((abs_nonneg _).trans ha.1)
    rw [hg, eM]; clear hM he eM; linarith
  obtain ⟨a1, a2⟩ := abs_le.mp (k1.trans slack)
  obtain ⟨b1, b2⟩ := abs_le.mp (k2.trans slack)
  simp only [Ray.pointBehind, Ray.pointLeft, Ray.pointRight, Vec2.copy_fl, ha', Bool.and_eq_true, Bool.and_eq_false_iff,
    decide_eq_true_eq, decide_eq_false_iff_not, gt_iff_lt, ge_iff_le, not_lt, not_le, ← real_lt, ← real_le, real_neg]
  clear he hM hg slack k1 k2
  generalize alongDist (toReal a) (toReal v) (toReal p) = A at *
  generalize signedDist (toReal a) (toReal v) (toReal p) = B at *
  refine ⟨fun h => ⟨by linarith, .inl (by linarith), .inl (by linarith)⟩,
    fun h => ⟨by linarith, fun h' => ⟨by linarith, by linarith⟩, fun h' => ⟨by linarith, by linarith⟩⟩,
    fun h => .inr (by linarith), fun h => .inr (by linarith)⟩

/-- **C78** The sides of `LineSegment(a, v)` for a vector longer than `2 ^ -490`. With `g = (M + 1) / 2 ^ 46`: a point is behind (ahead)
if it is at least EPSILON before the anchor (past the end) along `v`, and left (right) if it is neither and is at least EPSILON to
the left (right) of the exact line, in each case up to `g`. -/
theorem C78_segment_sides (eps : Double) (he : 1 / 2 ^ 500 ≤ eps.real) (he1 : eps.real ≤ 1 / 2) (a v p : Vec2 Double)
    (M : ℝ) (hM : M ≤ 2 ^ 500) (ha : Within M a) (hv : Within M v) (hlong : 1 / 2 ^ 490 < vlen (toReal v)) (hp : Within M p)
    (s : LineSegment Double) (h : LineSegment.new eps a v = .ok s) (g : ℝ) (hg : g = (M + 1) / 2 ^ 46) :
    (alongDist (toReal a) (toReal v) (toReal p) ≤ -(eps.real + g) →
      s.pointBehind eps p = true ∧ s.pointLeft eps p = false ∧ s.pointRight eps p = false) ∧
    (vlen (toReal v) + eps.real + g ≤ alongDist (toReal a) (toReal v) (toReal p) →
      s.pointAhead eps p = true ∧ s.pointLeft eps p = false ∧ s.pointRight eps p = false) ∧
    (-eps.real + g < alongDist (toReal a) (toReal v) (toReal p) →
      alongDist (toReal a) (toReal v) (toReal p) < vlen (toReal v) + eps.real - g →
      s.pointBehind eps p = false ∧ s.pointAhead eps p = false ∧
      (signedDist (toReal a) (toReal v) (toReal p) ≤ -(eps.real + g) → s.pointLeft eps p = true) ∧
      (eps.real + g ≤ signedDist (toReal a) (toReal v) (toReal p) → s.pointRight eps p = true)) ∧
    (-eps.real + g < signedDist (toReal a) (toReal v) (toReal p) → s.pointLeft eps p = false) ∧
    (signedDist (toReal a) (toReal v) (toReal p) < eps.real - g → s.pointRight eps p = false) := by
  have hfin : FiniteVec v := finite_within (hM.trans (pow_le_real (by norm_num))) hv
  have M0 : 0 ≤ M := (abs_nonneg _).trans ha.1
  have hu := uR_pos
  have hu' := uR_small
  have hθ := θR_pos
  have hηθ := ηR_θR
  have hη0 := ηR_pos
  have hη := ηR_small
  have uM : 0 ≤ uR * M := mul_nonneg hu.le M0
  have uM' : uR * M ≤ 1 / 1000 * M := mul_le_mul_of_nonneg_right hu' M0
  obtain ⟨ha', hn, hl, hc⟩ := new_segment he he1 hfin h
  rcases hc with ⟨h0, hd, hL⟩ | ⟨h0, -⟩
  swap
  · have := (short_vec hM hv h0).trans (le_trans (by linarith) slackθ)
    exact absurd hlong (not_lt.mpr this)
  rw [← hl] at hL
  change |s.length.real - vlen (toReal v)| ≤ 31 / 10 * uR * vlen (toReal v) at hL
  obtain ⟨k1, k2⟩ := d_along_across hd hn ha hp hM
  change |_ - alongDist (toReal a) (toReal v) (toReal p)| ≤ _ at k1
  change |_ - signedDist (toReal a) (toReal v) (toReal p)| ≤ _ at k2
  have nw : vlen (toReal v) ≤ 3 / 2 * M := norm_within hv.1 hv.2
  have unw := mul_le_mul_of_nonneg_left nw hu.le
  have n0 : 0 ≤ vlen (toReal v) := Real.sqrt_nonneg _
  have ep := (eps_small he).1
  have bL : |s.length.real| ≤ 2 * M := by
    have := abs_sub_abs_le_abs_sub s.length.real (vlen (toReal v))
    rw [abs_of_nonneg n0] at this
    clear hM he; linarith
  have bS : |s.length.real + eps.real| ≤ 2 * M + 1 / 2 := (abs_add_le _ _).trans (by
    rw [abs_of_pos ep]; clear hM he; linarith)
  have hS := add_ok s.length eps (pow_room hM (bS.trans (by clear hM he; linarith)) (by norm_num))
  have uS : uR * |s.length.real + eps.real| ≤ uR * (2 * M + 1 / 2) := mul_le_mul_of_nonneg_left bS hu.le
  have eM : (M + 1) / 2 ^ 46 = 128 * (uR * M) + 128 * uR := by unfold uR; ring
  have slack : 36 * uR * M + 4 * ηR ≤ g := by
    rw [hg, eM]; clear hM he eM; linarith
  have k3 : |(s.length + eps).real - (vlen (toReal v) + eps.real)| ≤ 5 * uR * M + 2 * uR * M + uR := by
    have t := abs_sub_le (s.length + eps).real (s.length.real + eps.real) (vlen (toReal v) + eps.real)
    rw [show s.length.real + eps.real - (vlen (toReal v) + eps.real) = s.length.real - vlen (toReal v) by ring] at t
    clear hM he eM; linarith
  have slack2 : 36 * uR * M + 4 * ηR + (5 * uR * M + 2 * uR * M + uR) ≤ g := by
    rw [hg, eM]; clear hM he eM; linarith
  obtain ⟨a1, a2⟩ := abs_le.mp k1
  obtain ⟨b1, b2⟩ := abs_le.mp k2
  obtain ⟨l1, l2⟩ := abs_le.mp k3
  simp only [LineSegment.pointBehind, LineSegment.pointAhead, LineSegment.pointLeft, LineSegment.pointRight, Vec2.copy_fl, ha',
    Bool.and_eq_true, Bool.and_eq_false_iff,
    decide_eq_true_eq, decide_eq_false_iff_not, gt_iff_lt, ge_iff_le, not_lt, not_le, ← real_lt, ← real_le, real_neg]
  clear he hM hg k1 k2 k3 hS eM hlong
  generalize alongDist (toReal a) (toReal v) (toReal p) = A at *
  generalize signedDist (toReal a) (toReal v) (toReal p) = B at *
  refine ⟨fun h => ⟨by linarith, .inl (.inr (by linarith)), .inl (.inr (by linarith))⟩,
    fun h => ⟨by linarith, .inl (.inl (by linarith)), .inl (.inl (by linarith))⟩,
    fun h h' => ⟨by linarith, by linarith, fun h' => ⟨⟨by linarith, by linarith⟩, by linarith⟩,
      fun h' => ⟨⟨by linarith, by linarith⟩, by linarith⟩⟩,
    fun h => .inr (by linarith), fun h => .inr (by linarith)⟩

/-- The ray and the segment from (0, 0) along (3, 4): (-3, -4) is behind both, (6, 8) ahead of the segment, (-2, 4) on the left of
both (2 along and 4 to the left). -/
example : ∃ r s, Ray.new (dbl (1 / 100000)) (dvec 0 0) (dvec 3 4) = .ok r ∧
    LineSegment.new (dbl (1 / 100000)) (dvec 0 0) (dvec 3 4) = .ok s ∧
    r.pointBehind (dbl (1 / 100000)) (dvec (-3) (-4)) = true ∧ s.pointBehind (dbl (1 / 100000)) (dvec (-3) (-4)) = true ∧
    s.pointAhead (dbl (1 / 100000)) (dvec 6 8) = true ∧ r.pointLeft (dbl (1 / 100000)) (dvec (-2) 4) = true ∧
    s.pointLeft (dbl (1 / 100000)) (dvec (-2) 4) = true := by
  have n0 : (dbl 0).real = 0 := by simpa using dbl_int 0 (by norm_num)
  have n3 : (dbl 3).real = 3 := by simpa using dbl_int 3 (by norm_num)
  have n4 : (dbl 4).real = 4 := by simpa using dbl_int 4 (by norm_num)
  have n6 : (dbl 6).real = 6 := by simpa using dbl_int 6 (by norm_num)
  have n8 : (dbl 8).real = 8 := by simpa using dbl_int 8 (by norm_num)
  have m2 : (dbl (-2)).real = -2 := by simpa using dbl_int (-2) (by norm_num)
  have m3 : (dbl (-3)).real = -3 := by simpa using dbl_int (-3) (by norm_num)
  have m4 : (dbl (-4)).real = -4 := by simpa using dbl_int (-4) (by norm_num)
  obtain ⟨h1, h2⟩ := dbl_eps
  have l5 : vlen (toReal (dvec 3 4)) = 5 := by
    rw [vlen_def]; simp only [dvec, n3, n4]
    rw [show (3 : ℝ) * 3 + 4 * 4 = 5 * 5 by norm_num, Real.sqrt_mul_self (by norm_num)]
  have he : 1 / 2 ^ 500 ≤ (dbl (1 / 100000)).real := (inv_pow_le (show 17 ≤ 500 by norm_num)).trans h1
  have he1 : (dbl (1 / 100000)).real ≤ 1 / 2 := h2.trans (by norm_num)
  have p7 : (8 : ℝ) ≤ 2 ^ 510 := by
    calc (8 : ℝ) = 2 ^ 3 := by norm_num
      _ ≤ 2 ^ 510 := pow_le_real (by norm_num)
  have p8 : (8 : ℝ) ≤ 2 ^ 500 := by
    calc (8 : ℝ) = 2 ^ 3 := by norm_num
      _ ≤ 2 ^ 500 := pow_le_real (by norm_num)
  have w : ∀ x y : ℚ, |(dbl x).real| ≤ 8 → |(dbl y).real| ≤ 8 → Within 8 (dvec x y) := fun _ _ hx hy => ⟨hx, hy⟩
  have w0 := w 0 0 (by rw [n0]; norm_num) (by rw [n0]; norm_num)
  have wv := w 3 4 (by rw [n3]; norm_num) (by rw [n4]; norm_num)
  have wb := w (-3) (-4) (by rw [m3]; norm_num) (by rw [m4]; norm_num)
  have wl := w (-2) 4 (by rw [m2]; norm_num) (by rw [n4]; norm_num)
  have wa := w 6 8 (by rw [n6]; norm_num) (by rw [n8]; norm_num)
  have hf : FiniteVec (dvec 3 4) := finite_within (p8.trans (pow_le_real (by norm_num))) wv
  obtain ⟨-, ⟨r, hr⟩, s, hs⟩ := (C78_constructors _ he he1 (dvec 0 0) (dvec 3 4) hf).1
    (by rw [l5]; clear he; norm_num at *; linarith) (by rw [l5]; refine le_trans ?_ p7; norm_num)
  have z : (1 : ℝ) / 2 ^ 490 ≤ 1 / 2 ^ 1 := inv_pow_le (by norm_num)
  have hlong : 1 / 2 ^ 490 < vlen (toReal (dvec 3 4)) := by rw [l5]; refine lt_of_le_of_lt z (by norm_num)
  have hal : ∀ x y : ℚ, alongDist (toReal (dvec 0 0)) (toReal (dvec 3 4)) (toReal (dvec x y)) =
      ((dbl x).real * 3 + (dbl y).real * 4) / 5 := by
    intro x y
    unfold alongDist
    rw [l5]
    simp only [toReal, dvec, n0, n3, n4, sub_zero]
  have hac : ∀ x y : ℚ, signedDist (toReal (dvec 0 0)) (toReal (dvec 3 4)) (toReal (dvec x y)) =
      ((dbl x).real * 4 - (dbl y).real * 3) / 5 := by
    intro x y
    unfold signedDist
    rw [l5]
    simp only [toReal, dvec, n0, n3, n4, sub_zero]
  have rb := (C78_ray_sides _ he he1 _ _ _ hf 8 p8 w0 wb r hr _ rfl).1
  have rl := (C78_ray_sides _ he he1 _ _ _ hf 8 p8 w0 wl r hr _ rfl).2.1
  have sb := (C78_segment_sides _ he he1 _ _ _ 8 p8 w0 wv hlong wb s hs _ rfl).1
  have sa := (C78_segment_sides _ he he1 _ _ _ 8 p8 w0 wv hlong wa s hs _ rfl).2.1
  have sl := (C78_segment_sides _ he he1 _ _ _ 8 p8 w0 wv hlong wl s hs _ rfl).2.2.1
  rw [hal] at rb rl sb sa sl
  rw [hac] at rl sl
  rw [l5] at sa sl
  rw [m3, m4] at rb sb
  rw [m2, n4] at rl sl
  rw [n6, n8] at sa
  have ep := (eps_small he).1
  clear he hlong p7 p8
  generalize (1 : ℝ) / 2 ^ 490 = y at *
  norm_num at rb rl sb sa sl z h2
  refine ⟨r, s, hr, hs, (rb (by linarith)).1, (sb (by linarith)).1, (sa (by linarith)).1, (rl (by linarith)).2.1 (by linarith),
    (sl (by linarith) (by linarith)).2.2.1 (by linarith)⟩

end Planar
