import Verif.Lemmas.FloatMap
/- **C95** transforming lines, rays and segments in double precision. -/
namespace Planar
open Spec
set_option linter.unusedSectionVars false
variable [PyMath Double] [SqrtOk]

section Aux
omit [PyMath Double] [SqrtOk]

theorem slack_g {B M g X : ℝ} (hX : X = B * (M + 1)) (hg : g = B * (M + 1) / 2 ^ 44 + 1 / 2 ^ 480) (hX0 : 0 ≤ X) :
    512 * (uR * X) + 7 * θR ≤ g ∧ 0 < g ∧ g ≤ X + 1 / 4 := by
  have h1 : 7 * θR ≤ 1 / 2 ^ 480 := by
    have h2 := inv_pow_le (show 480 ≤ 497 by norm_num)
    have e : (1 : ℝ) / 2 ^ 497 = 8 * θR := by
      unfold θR
      rw [show 500 = 497 + 3 by norm_num, inv_pow_split]
      generalize (1 : ℝ) / 2 ^ 497 = z
      norm_num
      ring
    rw [e] at h2
    refine le_trans ?_ h2
    have := θR_pos
    linarith
  have h2 : (1 : ℝ) / 2 ^ 480 ≤ 1 / 4 := (inv_pow_le (show 2 ≤ 480 by norm_num)).trans (by norm_num)
  have h3 : (0 : ℝ) < 1 / 2 ^ 480 := by positivity
  have e : B * (M + 1) / 2 ^ 44 = 512 * (uR * X) := by rw [hX]; unfold uR; ring
  have hu : uR * X ≤ 1 / 1000 * X := mul_le_mul_of_nonneg_right uR_small hX0
  have hu' : uR * X ≤ 1 / 512 * X := by linarith
  have hu0 : 0 ≤ uR * X := mul_nonneg uR_pos.le hX0
  rw [hg, e]
  generalize (1 : ℝ) / 2 ^ 480 = z at *
  refine ⟨by linarith, by linarith, by linarith⟩

theorem τR_θR : 3 * τR ≤ θR := by
  have h1 := inv_pow_le (show 502 ≤ 1072 by norm_num)
  unfold τR θR
  have : (1 : ℝ) / 2 ^ 502 = 1 / 4 * (1 / 2 ^ 500) := by
    rw [show 502 = 2 + 500 by norm_num, inv_pow_split]; norm_num
  have h0 : (0 : ℝ) < 1 / 2 ^ 500 := by positivity
  rw [this] at h1
  generalize (1 : ℝ) / 2 ^ 1072 = z at *
  generalize (1 : ℝ) / 2 ^ 500 = y at *
  linarith

theorem room_X {B M X : ℝ} (hX : X = B * (M + 1)) (B0 : 0 ≤ B) (M0 : 0 ≤ M) (hB : B ≤ 2 ^ 240) (hM : M ≤ 2 ^ 240) :
    0 ≤ X ∧ X ≤ 2 ^ 490 ∧ B ≤ X := by
  have h1 : (1 : ℝ) ≤ 2 ^ 240 := one_le_pow₀ (by norm_num)
  refine ⟨by rw [hX]; exact mul_nonneg B0 (by linarith), ?_, by rw [hX]; nlinarith⟩
  rw [hX]
  have h2 : (2 : ℝ) ^ 490 = 2 ^ 240 * (2 ^ 240 * 2 ^ 10) := by rw [← pow_add, ← pow_add]
  rw [h2]
  refine mul_le_mul hB ?_ (by linarith) (by positivity)
  generalize (2 : ℝ) ^ 240 = G at *
  linarith

theorem map_unit_le {T : Affine Double} {B X : ℝ} (hT : WithinT B T) (hBX : B ≤ X) {c s : ℝ} (hc : |c| ≤ 1) (hs : |s| ≤ 1) :
    |(mapVec T ⟨c, s⟩).x| ≤ 10 * X ∧ |(mapVec T ⟨c, s⟩).y| ≤ 10 * X := by
  have B0 : 0 ≤ B := (abs_nonneg _).trans hT.1
  have one : ∀ p q : ℝ, |p| ≤ B → |q| ≤ B → |c * p + s * q| ≤ 10 * X := by
    intro p q hp hq
    have h1 := mul_le_mul hc hp (abs_nonneg _) zero_le_one
    have h2 := mul_le_mul hs hq (abs_nonneg _) zero_le_one
    have h3 := abs_add_le (c * p) (s * q)
    rw [abs_mul, abs_mul] at h3
    linarith
  obtain ⟨ta, tb, tc, td, te, tf⟩ := hT
  exact ⟨one _ _ ta td, one _ _ tb te⟩

/-- A step of length one from a known point. -/
theorem unit_step_near {a d : Double} {A c e M : ℝ} (ha : |a.real - A| ≤ e) (hd : |d.real - c| ≤ 8 * uR * |c| + ηR) (hc : |c| ≤ 1)
    (hA : |A| ≤ 2 * M) (M0 : 0 ≤ M) (hM : M ≤ 2 ^ 490) (he : e ≤ 62 * uR * (M + 1)) :
    |(a + d).real - (A + c)| ≤ 80 * uR * (M + 1) := by
  have hu := uR_pos
  have hu' : uR ≤ 1 / 1000 := uR_small
  have hη := ηR_small
  have hη0 := ηR_pos
  have M1 : 1 ≤ M + 1 := by linarith
  have u1 : uR * 1 ≤ uR * (M + 1) := mul_le_mul_of_nonneg_left M1 hu.le
  have u2 : uR * (M + 1) ≤ 1 / 1000 * (M + 1) := mul_le_mul_of_nonneg_right hu' (by linarith)
  have uc : uR * |c| ≤ uR * 1 := mul_le_mul_of_nonneg_left hc hu.le
  have e0 : 0 ≤ e := (abs_nonneg _).trans ha
  have hd' : |d.real - c| ≤ 9 * uR := by linarith
  have hN : |A + c| ≤ 2 * (M + 1) := (abs_add_le _ _).trans (by linarith)
  have r : 2 * (M + 1) + e + 9 * uR ≤ 2 ^ 1023 := by
    have hM' : M ≤ 2 ^ 500 := hM.trans (pow_le_real (by norm_num))
    refine room hM' ?_
    clear hM' hM
    linarith
  have := add_near ha hd' hN r
  clear hM r
  linarith

end Aux

/-- **C95** (partial: the transforms of a ray that is not far from the origin; see `C95_violated`.) For a ray `Ray(a, v)` let
`W` be what the transform makes of the unit vector along `v`. If `W` is longer than EPSILON (and the error `2 g`), `T * ray` and
`ray *= T` give the same ray: it is `Ray(q, w)` where `q` is the image of `a` and `w` is `W`, both up to `g`, so that its
direction is that of `W` up to `3 g / |W|`; if `W` is shorter than EPSILON, both raise ValueError and `*=` leaves the ray as it
was. -/
theorem C95_ray_partial (eps : Double) (he : 1 / 2 ^ 500 ≤ eps.real) (he1 : eps.real ≤ 1 / 2) (a v : Vec2 Double)
    (hv : FiniteVec v) (l : Ray Double) (h : Ray.new eps a v = .ok l) (T : Affine Double) (B M : ℝ) (hB : B ≤ 2 ^ 240)
    (hM : M ≤ 2 ^ 240) (hT : WithinT B T) (ha : Within M a) (g : ℝ) (hg : g = B * (M + 1) / 2 ^ 44 + 1 / 2 ^ 480)
    (W : Vec2 ℝ) (hW : W = mapVec T (dirOf (toReal v))) :
    (eps.real * (1 + 1 / 2 ^ 49) + 2 * g ≤ vlen W → ∃ r q w, l.transformed eps T = .ok r ∧
      l.imul eps T = (.ok (), r) ∧ Ray.new eps q w = .ok r ∧ r.anchor = q ∧ CloseTo g q (mapPt T (toReal a)) ∧
      CloseTo g w W ∧ CloseTo (3 * g / vlen W + 1 / 2 ^ 50) r.direction (dirOf W) ∧
      r.normal = ⟨r.direction.y, -r.direction.x⟩) ∧
    (vlen W ≤ eps.real * (1 - 1 / 2 ^ 49) - 2 * g →
      l.transformed eps T = .error .valueError ∧ l.imul eps T = (.error .valueError, l)) := by
  obtain ⟨hd, hn, ha'⟩ := new_ray he he1 hv h
  have B0 : 0 ≤ B := (abs_nonneg _).trans hT.1
  have M0 : 0 ≤ M := (abs_nonneg _).trans ha.1
  obtain ⟨X, hX⟩ : ∃ X, X = B * (M + 1) := ⟨_, rfl⟩
  obtain ⟨X0, hXb, hBX⟩ := room_X hX B0 M0 hB hM
  obtain ⟨sg, g0, gX⟩ := slack_g hX hg X0
  have hcs := unit_of_div hd.pos
  have hc := unit_comp hcs
  have hs : |v.y.real / √(v.x.real * v.x.real + v.y.real * v.y.real)| ≤ 1 :=
    unit_comp (s := v.x.real / √(v.x.real * v.x.real + v.y.real * v.y.real)) (by linarith)
  have hvec := hd.vec.mono (k' := 8) (by norm_num)
  have hM490 : M ≤ 2 ^ 490 := hM.trans (pow_le_real (by norm_num))
  have hXb5 : X ≤ 2 ^ 500 := hXb.trans (pow_le_real (by norm_num))
  have hWu : W = mapVec T ⟨v.x.real / √(v.x.real * v.x.real + v.y.real * v.y.real),
    v.y.real / √(v.x.real * v.x.real + v.y.real * v.y.real)⟩ := hW
  clear hB hM hg
  generalize v.x.real / √(v.x.real * v.x.real + v.y.real * v.y.real) = c at *
  generalize v.y.real / √(v.x.real * v.x.real + v.y.real * v.y.real) = s at *
  have hP : CloseTo (80 * uR * (M + 1)) a (toReal a) := by
    have : 0 ≤ 80 * uR * (M + 1) := mul_nonneg (by have := uR_pos; linarith) (by linarith)
    constructor <;> (simp only [toReal, sub_self, abs_zero]; exact this)
  have hQ : CloseTo (80 * uR * (M + 1)) (a + l.direction) ⟨(toReal a).x + c, (toReal a).y + s⟩ := by
    have : (0 : ℝ) ≤ 62 * uR * (M + 1) := mul_nonneg (by have := uR_pos; linarith) (by linarith)
    have ha1 := ha.1
    have ha2 := ha.2
    exact ⟨unit_step_near (e := 0) (by simp [toReal]) hvec.1 hc (by simp only [toReal]; linarith) M0 hM490 this,
      unit_step_near (e := 0) (by simp [toReal]) hvec.2 hs (by simp only [toReal]; linarith) M0 hM490 this⟩
  have b1 : ∀ x c : ℝ, |x| ≤ M → |c| ≤ 1 → |x| ≤ 2 * (M + 1) ∧ |x + c| ≤ 2 * (M + 1) := by
    intro x c h1 h2
    refine ⟨by linarith, (abs_add_le _ _).trans (by linarith)⟩
  obtain ⟨p1, -, w1, -, -⟩ := pair_near hT M0 hX hXb5 hP hQ (b1 _ c ha.1 hc).1 (b1 _ s ha.2 hs).1 (b1 _ c ha.1 hc).2
    (b1 _ s ha.2 hs).2
  rw [show (⟨(toReal a).x + c - (toReal a).x, (toReal a).y + s - (toReal a).y⟩ : Vec2 ℝ) = ⟨c, s⟩ by
    refine Vec2.ext ?_ ?_ <;> simp, ← hWu] at w1
  have hτ := τR_θR
  have hτ0 := τR_pos
  have hθ := θR_pos
  have uX : 0 ≤ uR * X := mul_nonneg uR_pos.le X0
  obtain ⟨W1, W2⟩ := map_unit_le hT hBX hc hs
  rw [← hWu] at W1 W2
  obtain ⟨long, short⟩ := long_or_short he he1 w1 (g := g) (by clear he hXb5; linarith) W1 W2 hXb5 gX
  have hpts : T.applyPts [l.points.1, l.points.2] = [T.apply a, T.apply (a + l.direction)] := by
    rw [← ha']; rfl
  constructor
  · intro hl
    obtain ⟨n, hn1, -, hset, hn0, -⟩ := long hl
    have hne : ¬ (T.apply (a + l.direction) == T.apply a) = true := by
      intro heq
      rw [eq_of_beq heq] at hn0
      exact hn0 (diff_self (T.apply a)).2
    refine ⟨⟨⟨n, ⟨n.y, -n.x⟩⟩, T.apply a⟩, T.apply a, T.apply (a + l.direction) - T.apply a, ?_, ?_, ?_, rfl, ?_, ?_, hn1, rfl⟩
    · rw [Ray.transformed, hpts]
      simp only [Ray.fromPoints, firstTwoDistinct, firstTwoDistinct.go, Vec2.copy_fl, hne, if_false, bind, Except.bind,
        Lin.ofDirection, hset, List.all_nil, if_true, pure, Except.pure, Bool.false_eq_true]
    · simp only [Ray.imul, Ray.points, ha', Ray.setDirection, hset, Ray.setAnchor, Vec2.copy_fl]
    · simp only [Ray.new, Vec2.copy_fl, bind, Except.bind, Lin.ofDirection, hset, pure, Except.pure]
    · exact ⟨p1.1.trans (by clear he hXb5; linarith), p1.2.trans (by clear he hXb5; linarith)⟩
    · exact ⟨w1.1.trans (by clear he hXb5; linarith), w1.2.trans (by clear he hXb5; linarith)⟩
  · intro hl
    have hset := short hl
    constructor
    · rw [Ray.transformed, hpts]
      simp only [Ray.fromPoints, firstTwoDistinct, firstTwoDistinct.go, Vec2.copy_fl]
      by_cases heq : (T.apply (a + l.direction) == T.apply a) = true
      · simp only [heq, if_true, bind, Except.bind]
      · simp only [heq, if_false, bind, Except.bind, Lin.ofDirection, hset, Bool.false_eq_true]
    · simp only [Ray.imul, Ray.points, ha', Ray.setDirection, hset]
      rw [← ha']

/-- **C95** (partial: as above, for lines.) `F` is the point of the line nearest to the origin; the result is `Line(q, w)`
where `q` is the image of `F` and `w` is `W`, both up to `g`. -/
theorem C95_line_partial (eps : Double) (he : 1 / 2 ^ 500 ≤ eps.real) (he1 : eps.real ≤ 1 / 2) (a v : Vec2 Double)
    (hv : FiniteVec v) (l : Line Double) (h : Line.new eps a v = .ok l) (T : Affine Double) (B M : ℝ) (hB : B ≤ 2 ^ 240)
    (hM : M ≤ 2 ^ 240) (hT : WithinT B T) (ha : Within M a) (g : ℝ) (hg : g = B * (M + 1) / 2 ^ 44 + 1 / 2 ^ 480)
    (W : Vec2 ℝ) (hW : W = mapVec T (dirOf (toReal v))) (F : Vec2 ℝ)
    (hF : Nearest (OnLine (toReal a) (toReal v)) ⟨0, 0⟩ F) :
    (eps.real * (1 + 1 / 2 ^ 49) + 2 * g ≤ vlen W → ∃ r q w, l.transformed eps T = .ok r ∧
      l.imul eps T = (.ok (), r) ∧ Line.new eps q w = .ok r ∧ CloseTo g q (mapPt T F) ∧ CloseTo g w W ∧
      CloseTo (3 * g / vlen W + 1 / 2 ^ 50) r.direction (dirOf W) ∧ r.normal = ⟨r.direction.y, -r.direction.x⟩) ∧
    (vlen W ≤ eps.real * (1 - 1 / 2 ^ 49) - 2 * g →
      l.transformed eps T = .error .valueError ∧ l.imul eps T = (.error .valueError, l)) := by
  obtain ⟨hd, hn, ho⟩ := new_line he he1 hv h
  have B0 : 0 ≤ B := (abs_nonneg _).trans hT.1
  have M0 : 0 ≤ M := (abs_nonneg _).trans ha.1
  obtain ⟨X, hX⟩ : ∃ X, X = B * (M + 1) := ⟨_, rfl⟩
  obtain ⟨X0, hXb, hBX⟩ := room_X hX B0 M0 hB hM
  obtain ⟨sg, g0, gX⟩ := slack_g hX hg X0
  have hcs := unit_of_div hd.pos
  have hc := unit_comp hcs
  have hs : |v.y.real / √(v.x.real * v.x.real + v.y.real * v.y.real)| ≤ 1 :=
    unit_comp (s := v.x.real / √(v.x.real * v.x.real + v.y.real * v.y.real)) (by linarith)
  have hvec := hd.vec.mono (k' := 8) (by norm_num)
  have hM490 : M ≤ 2 ^ 490 := hM.trans (pow_le_real (by norm_num))
  have hM500 : M ≤ 2 ^ 500 := hM.trans (pow_le_real (by norm_num))
  have hXb5 : X ≤ 2 ^ 500 := hXb.trans (pow_le_real (by norm_num))
  have hWu : W = mapVec T ⟨v.x.real / √(v.x.real * v.x.real + v.y.real * v.y.real),
    v.y.real / √(v.x.real * v.x.real + v.y.real * v.y.real)⟩ := hW
  obtain ⟨fx, fy⟩ := nearest_line (v := toReal v) hd.pos hF
  rw [ahead_eq (v := toReal v) hd.pos] at fx fy
  change F.x = a.x.real + ((0 - a.x.real) * (v.x.real / √(v.x.real * v.x.real + v.y.real * v.y.real)) +
    (0 - a.y.real) * (v.y.real / √(v.x.real * v.x.real + v.y.real * v.y.real))) *
    (v.x.real / √(v.x.real * v.x.real + v.y.real * v.y.real)) at fx
  change F.y = a.y.real + ((0 - a.x.real) * (v.x.real / √(v.x.real * v.x.real + v.y.real * v.y.real)) +
    (0 - a.y.real) * (v.y.real / √(v.x.real * v.x.real + v.y.real * v.y.real))) *
    (v.y.real / √(v.x.real * v.x.real + v.y.real * v.y.real)) at fy
  clear hB hM hg
  generalize v.x.real / √(v.x.real * v.x.real + v.y.real * v.y.real) = c at *
  generalize v.y.real / √(v.x.real * v.x.real + v.y.real * v.y.real) = s at *
  have hcs' : s * s + -c * -c = 1 := by linarith
  have hnn : NearVec 8 s (-c) l.normal := by rw [hn]; exact hvec.right
  have hM2 : M ≤ 2 ^ 1000 := hM500.trans (pow_le_real (by norm_num))
  have da := dot_double hcs' (rel_self a.x.real) (rel_self a.y.real) hnn (ha.1.trans hM2) (ha.2.trans hM2)
  rw [← ho] at da
  have na := norm_within ha.1 ha.2
  have ca := unit_dot_le (x := a.x.real) (y := a.y.real) hcs'
  have ta := (abs_add_le (a.x.real * s) (a.y.real * -c)).trans ca
  have fx' : F.x = s * (a.x.real * s + a.y.real * -c) := by rw [fx]; linear_combination -a.x.real * hcs
  have fy' : F.y = -c * (a.x.real * s + a.y.real * -c) := by rw [fy]; linear_combination -a.y.real * hcs
  clear fx fy hM2
  generalize a.x.real * s + a.y.real * -c = A at *
  have hu := uR_pos
  have hη := ηR_small
  have hη0 := ηR_pos
  have uM : 0 ≤ uR * M := mul_nonneg hu.le M0
  have uM' : uR * M ≤ 1 / 1000 * M := mul_le_mul_of_nonneg_right uR_small M0
  have hA : |A| ≤ 3 / 2 * M := ta.trans na
  have oA : |l.offset.real - A| ≤ 18 * (uR * M) + 4 * ηR := by
    refine da.trans ?_
    have := mul_le_mul_of_nonneg_left na hu.le
    clear hM490 hM500 hXb hXb5 he
    linarith
  have rm : 2 * (3 / 2 * M + (18 * (uR * M) + 4 * ηR)) ≤ 2 ^ 1023 := by
    refine room hM500 ?_
    have := uR_small
    clear hM490 hM500 hXb hXb5 he
    linarith
  have hPx := mul_near hs hnn.1 oA hA rm
  have hPy := mul_near (c := -c) (by rw [abs_neg]; exact hc) hnn.2 oA hA rm
  rw [← fx'] at hPx
  rw [← fy'] at hPy
  have e40 : 102 / 100 * (18 * (uR * M) + 4 * ηR) + 10 * (uR * (3 / 2 * M)) + ηR ≤ 62 * uR * (M + 1) := by
    clear hM490 hM500 hXb hXb5 he rm
    linarith
  have hFx : |F.x| ≤ 3 / 2 * M := by
    rw [fx', abs_mul]
    have := mul_le_mul hs hA (abs_nonneg _) zero_le_one
    clear hM490 hM500 hXb hXb5 he rm
    linarith
  have hFy : |F.y| ≤ 3 / 2 * M := by
    rw [fy', abs_mul, abs_neg]
    have := mul_le_mul hc hA (abs_nonneg _) zero_le_one
    clear hM490 hM500 hXb hXb5 he rm
    linarith
  have e80 : 62 * uR * (M + 1) ≤ 80 * uR * (M + 1) := by
    have : 0 ≤ uR * (M + 1) := mul_nonneg hu.le (by linarith)
    clear hM490 hM500 hXb hXb5 he rm
    linarith
  have hP : CloseTo (80 * uR * (M + 1)) l.points.1 F := ⟨hPx.trans (e40.trans e80), hPy.trans (e40.trans e80)⟩
  have F2x : |F.x| ≤ 2 * M := by clear hM490 hM500 hXb hXb5 he rm; linarith
  have F2y : |F.y| ≤ 2 * M := by clear hM490 hM500 hXb hXb5 he rm; linarith
  have hQ : CloseTo (80 * uR * (M + 1)) l.points.2 ⟨F.x + c, F.y + s⟩ :=
    ⟨unit_step_near hPx hvec.1 hc F2x M0 hM490 e40, unit_step_near hPy hvec.2 hs F2y M0 hM490 e40⟩
  have b1 : ∀ x c : ℝ, |x| ≤ 2 * M → |c| ≤ 1 → |x| ≤ 2 * (M + 1) ∧ |x + c| ≤ 2 * (M + 1) := by
    intro x c h1 h2
    refine ⟨by linarith, (abs_add_le _ _).trans (by linarith)⟩
  obtain ⟨p1, -, w1, -, -⟩ := pair_near hT M0 hX hXb5 hP hQ (b1 _ c F2x hc).1 (b1 _ s F2y hs).1 (b1 _ c F2x hc).2
    (b1 _ s F2y hs).2
  rw [show (⟨F.x + c - F.x, F.y + s - F.y⟩ : Vec2 ℝ) = ⟨c, s⟩ by
    refine Vec2.ext ?_ ?_ <;> simp, ← hWu] at w1
  have hτ := τR_θR
  have hτ0 := τR_pos
  have hθ := θR_pos
  have uX : 0 ≤ uR * X := mul_nonneg uR_pos.le X0
  obtain ⟨W1, W2⟩ := map_unit_le hT hBX hc hs
  rw [← hWu] at W1 W2
  obtain ⟨long, short⟩ := long_or_short he he1 w1 (g := g) (by clear he hXb5 hM490 hM500 hXb rm; linarith) W1 W2 hXb5 gX
  have hpts : T.applyPts [l.points.1, l.points.2] = [T.apply l.points.1, T.apply l.points.2] := rfl
  have gp : 200 * (uR * X) + τR ≤ g := by clear he hXb5 hM490 hM500 hXb rm; linarith
  have gw : 415 * (uR * X) + 3 * τR ≤ g := by clear he hXb5 hM490 hM500 hXb rm; linarith
  constructor
  · intro hl
    obtain ⟨n, hn1, -, hset, hn0, -⟩ := long hl
    have hne : ¬ (T.apply l.points.2 == T.apply l.points.1) = true := by
      intro heq
      rw [eq_of_beq heq] at hn0
      exact hn0 (diff_self _).2
    refine ⟨⟨⟨n, ⟨n.y, -n.x⟩⟩, (T.apply l.points.1).dot ⟨n.y, -n.x⟩⟩, T.apply l.points.1,
      T.apply l.points.2 - T.apply l.points.1, ?_, ?_, ?_, ?_, ?_, hn1, rfl⟩
    · rw [Line.transformed, hpts]
      simp only [Line.fromPoints, firstTwoDistinct, firstTwoDistinct.go, Vec2.copy_fl, hne, if_false, bind, Except.bind,
        Lin.ofDirection, hset, List.all_nil, if_true, pure, Except.pure, Bool.false_eq_true]
    · simp only [Line.imul, Line.setDirection, hset]
    · simp only [Line.new, Vec2.copy_fl, bind, Except.bind, Lin.ofDirection, hset, pure, Except.pure]
    · exact ⟨p1.1.trans gp, p1.2.trans gp⟩
    · exact ⟨w1.1.trans gw, w1.2.trans gw⟩
  · intro hl
    have hset := short hl
    constructor
    · rw [Line.transformed, hpts]
      simp only [Line.fromPoints, firstTwoDistinct, firstTwoDistinct.go, Vec2.copy_fl]
      by_cases heq : (T.apply l.points.2 == T.apply l.points.1) = true
      · simp only [heq, if_true, bind, Except.bind]
      · simp only [heq, if_false, bind, Except.bind, Lin.ofDirection, hset, Bool.false_eq_true]
    · simp only [Line.imul, Line.setDirection, hset]

omit [SqrtOk] in
theorem d_length2_nonneg (v : Vec2 Double) : 0 ≤ v.length2 := by
  simp only [Vec2.length2]
  exact f_add_nonneg (f_mul_self_nonneg _) (f_mul_self_nonneg _)

/-- The furthest of one point. -/
theorem furthest_one {p q : Vec2 Double} (h : (q - p).length ≠ 0) : LineSegment.furthestLoop p [q] 0 p = q := by
  simp only [LineSegment.furthestLoop, Vec2.copy_fl]
  have : (q - p).length2 > 0 := by
    refine lt_of_le_of_ne (d_length2_nonneg _) ?_
    intro h0
    apply h
    rw [Vec2.length, ← h0, sqrt_zero]
  rw [if_pos this]

omit [PyMath Double] [SqrtOk] in
theorem θR_uR : 3 * θR ≤ uR := by
  have h := inv_pow_le (show 55 ≤ 500 by norm_num)
  unfold θR
  refine le_trans (mul_le_mul_of_nonneg_left h (by norm_num)) ?_
  unfold uR
  norm_num

/-- The end of a segment is where it should be. -/
theorem end_near {eps : Double} (he : 1 / 2 ^ 500 ≤ eps.real) (he1 : eps.real ≤ 1 / 2) {a v : Vec2 Double} {M : ℝ}
    (hM : M ≤ 2 ^ 500) (ha : Within M a) (hv : Within M v) {l : LineSegment Double} (h : LineSegment.new eps a v = .ok l) :
    CloseTo (22 * uR * M + 4 * θR) l.end' ⟨a.x.real + v.x.real, a.y.real + v.y.real⟩ := by
  have M0 : 0 ≤ M := (abs_nonneg _).trans ha.1
  have hfin : FiniteVec v := finite_within (hM.trans (pow_le_real (by norm_num))) hv
  obtain ⟨ha', hn, hl, hc⟩ := new_segment he he1 hfin h
  have hθ := θR_pos
  have hηθ := ηR_θR
  have uM : 0 ≤ uR * M := mul_nonneg uR_pos.le M0
  rcases hc with ⟨h0, hd, hL⟩ | ⟨h0, hd⟩
  · have hcs := unit_of_div hd.pos
    have hc := unit_comp hcs
    have hs : |v.y.real / √(v.x.real * v.x.real + v.y.real * v.y.real)| ≤ 1 :=
      unit_comp (s := v.x.real / √(v.x.real * v.x.real + v.y.real * v.y.real)) (by linarith)
    have hvec := hd.vec.mono (k' := 8) (by norm_num)
    have ex := end_coord hc hvec.1 hd.pos.le (norm_within hv.1 hv.2) (L := l.length) (by rw [hl]; exact hL) ha.1 hM
    have ey := end_coord hs hvec.2 hd.pos.le (norm_within hv.1 hv.2) (L := l.length) (by rw [hl]; exact hL) ha.2 hM
    rw [mul_div_cancel₀ _ hd.pos.ne'] at ex ey
    have e : 22 * uR * M + 4 * ηR ≤ 22 * uR * M + 4 * θR := by clear hM he; linarith
    have hend : l.end' = ⟨a.x + l.direction.x * l.length, a.y + l.direction.y * l.length⟩ := by rw [← ha']; rfl
    rw [hend]
    exact ⟨ex.trans e, ey.trans e⟩
  · have hend : l.end' = a := by
      rw [← ha']
      simp only [LineSegment.end', Vec2.smul, hl, h0]
      refine Vec2.ext ?_ ?_
      · show l.anchor.x + l.direction.x * 0 = _; rw [f_mul_zero, f_add_zero]
      · show l.anchor.y + l.direction.y * 0 = _; rw [f_mul_zero, f_add_zero]
    have h5 : (2 : ℝ) ^ 500 ≤ 2 ^ 510 := pow_le_real (by norm_num)
    have := length_double v (hv.1.trans (hM.trans h5)) (hv.2.trans (hM.trans h5))
    rw [h0, real_zero] at this
    have h1 := (abs_le.mp this).1
    have hr := Real.sqrt_nonneg (v.x.real * v.x.real + v.y.real * v.y.real)
    have h2 := mul_le_mul_of_nonneg_right uR_small hr
    have vx := abs_le_norm v.x.real v.y.real
    have vy : |v.y.real| ≤ √(v.x.real * v.x.real + v.y.real * v.y.real) := by
      have := abs_le_norm v.y.real v.x.real
      rwa [add_comm] at this
    clear h5 hM he
    rw [hend]
    constructor
    · rw [show a.x.real - (a.x.real + v.x.real) = -v.x.real by ring, abs_neg]; linarith
    · rw [show a.y.real - (a.y.real + v.y.real) = -v.y.real by ring, abs_neg]; linarith

/-- **C95** (partial: as above, for segments.) `segment *= T` is the segment between the images of the ends up to `g` if
the image `W` of its vector is longer than EPSILON (and the error), and so is `T * segment` if the error `2 g` is not above
EPSILON; if `W` is shorter than EPSILON (and not so short that its length may be computed as zero) both raise ValueError. -/
theorem C95_segment_partial (eps : Double) (he : 1 / 2 ^ 500 ≤ eps.real) (he1 : eps.real ≤ 1 / 2) (a v : Vec2 Double)
    (l : LineSegment Double) (h : LineSegment.new eps a v = .ok l) (T : Affine Double) (B M : ℝ) (hB : B ≤ 2 ^ 240)
    (hM : M ≤ 2 ^ 240) (hT : WithinT B T) (ha : Within M a) (hv : Within M v) (g : ℝ)
    (hg : g = B * (M + 1) / 2 ^ 44 + 1 / 2 ^ 480) (W : Vec2 ℝ) (hW : W = mapVec T (toReal v)) :
    (eps.real * (1 + 1 / 2 ^ 49) + 2 * g ≤ vlen W → ∃ r, l.imul eps T = (.ok (), r) ∧
      CloseTo g r.anchor (mapPt T (toReal a)) ∧
      CloseTo g r.end' (mapPt T ⟨(toReal a).x + (toReal v).x, (toReal a).y + (toReal v).y⟩) ∧
      CloseTo (3 * g / vlen W + 1 / 2 ^ 50) r.direction (dirOf W) ∧ r.normal = ⟨r.direction.y, -r.direction.x⟩ ∧
      (l.transformed eps T = .ok r ∨ l.transformed eps T = .error .valueError) ∧
      (2 * g ≤ eps.real → l.transformed eps T = .ok r)) ∧
    (3 * g ≤ vlen W → vlen W ≤ eps.real * (1 - 1 / 2 ^ 49) - 2 * g →
      l.transformed eps T = .error .valueError ∧ l.imul eps T = (.error .valueError, l)) := by
  have B0 : 0 ≤ B := (abs_nonneg _).trans hT.1
  have M0 : 0 ≤ M := (abs_nonneg _).trans ha.1
  obtain ⟨X, hX⟩ : ∃ X, X = B * (M + 1) := ⟨_, rfl⟩
  obtain ⟨X0, hXb, hBX⟩ := room_X hX B0 M0 hB hM
  obtain ⟨sg, g0, gX⟩ := slack_g hX hg X0
  have g480 : 1 / 2 ^ 480 ≤ g := by
    rw [hg]
    have : 0 ≤ B * (M + 1) / 2 ^ 44 := div_nonneg (mul_nonneg B0 (by linarith)) (by positivity)
    linarith
  have hM500 : M ≤ 2 ^ 500 := hM.trans (pow_le_real (by norm_num))
  have hXb5 : X ≤ 2 ^ 500 := hXb.trans (pow_le_real (by norm_num))
  have hfin : FiniteVec v := finite_within (hM500.trans (pow_le_real (by norm_num))) hv
  obtain ⟨ha', -, -, -⟩ := new_segment he he1 hfin h
  have hend := end_near he he1 hM500 ha hv h
  clear hB hM hg
  have hu := uR_pos
  have hu' := uR_small
  have hθu := θR_uR
  have hθ := θR_pos
  have hηθ := ηR_θR
  have hη0 := ηR_pos
  have hτ := τR_θR
  have hτ0 := τR_pos
  have uX : 0 ≤ uR * X := mul_nonneg hu.le X0
  have uX' : uR * X ≤ 1 / 1000 * X := mul_le_mul_of_nonneg_right hu' X0
  have uM : 0 ≤ uR * M := mul_nonneg hu.le M0
  have hP : CloseTo (80 * uR * (M + 1)) a (toReal a) := by
    have : 0 ≤ 80 * uR * (M + 1) := mul_nonneg (by linarith) (by linarith)
    constructor <;> (simp only [toReal, sub_self, abs_zero]; exact this)
  have hQ : CloseTo (80 * uR * (M + 1)) l.end' ⟨(toReal a).x + (toReal v).x, (toReal a).y + (toReal v).y⟩ := by
    have : 22 * uR * M + 4 * θR ≤ 80 * uR * (M + 1) := by linarith
    exact ⟨hend.1.trans this, hend.2.trans this⟩
  have b1 : ∀ x z : ℝ, |x| ≤ M → |z| ≤ M → |x| ≤ 2 * (M + 1) ∧ |x + z| ≤ 2 * (M + 1) := by
    intro x z h1 h2
    refine ⟨by linarith, (abs_add_le _ _).trans (by linarith)⟩
  obtain ⟨p1, q1, w1, wp, wq⟩ := pair_near hT M0 hX hXb5 hP hQ (b1 _ _ ha.1 hv.1).1 (b1 _ _ ha.2 hv.2).1
    (b1 _ _ ha.1 hv.1).2 (b1 _ _ ha.2 hv.2).2
  rw [show (⟨(toReal a).x + (toReal v).x - (toReal a).x, (toReal a).y + (toReal v).y - (toReal a).y⟩ : Vec2 ℝ) = toReal v by
    refine Vec2.ext ?_ ?_ <;> simp [toReal], ← hW] at w1
  have hWb : ∀ s t : ℝ, |s| ≤ B → |t| ≤ B → |v.x.real * s + v.y.real * t| ≤ 2 * X := by
    intro s t hs ht
    have h1 := mul_le_mul hv.1 hs (abs_nonneg _) M0
    have h2 := mul_le_mul hv.2 ht (abs_nonneg _) M0
    have h3 := abs_add_le (v.x.real * s) (v.y.real * t)
    rw [abs_mul, abs_mul] at h3
    have : M * B ≤ X := by rw [hX]; linarith
    linarith
  have W1 : |W.x| ≤ 2 * X := by rw [hW]; exact hWb _ _ hT.1 hT.2.2.2.1
  have W2 : |W.y| ≤ 2 * X := by rw [hW]; exact hWb _ _ hT.2.1 hT.2.2.2.2.1
  have gw : 415 * (uR * X) + 3 * τR ≤ g := by clear he hXb5 hXb hM500; linarith
  obtain ⟨long, short⟩ := long_or_short he he1 w1 (g := g) gw (X := X) (by clear he hXb5 hXb hM500; linarith)
    (by clear he hXb5 hXb hM500; linarith) hXb5 gX
  have hpts : T.applyPts [l.points.1, l.points.2] = [T.apply a, T.apply l.end'] := by rw [← ha']; rfl
  have wv : Within (6 * X + 3 * τR) (T.apply l.end' - T.apply a) := by
    have h1 := w1.1
    have h2 := w1.2
    have t1 := abs_sub_abs_le_abs_sub (T.apply l.end' - T.apply a).x.real W.x
    have t2 := abs_sub_abs_le_abs_sub (T.apply l.end' - T.apply a).y.real W.y
    clear he hXb5 hXb hM500
    exact ⟨by linarith, by linarith⟩
  have dd : ∀ p q : Double, |p.real| ≤ 6 * X + 3 * τR → |q.real| ≤ 6 * X + 3 * τR →
      |p.real + (q - p).real - q.real| ≤ 12 * (uR * X) + τR := by
    intro p q h1 h2
    have h3 : |q.real - p.real| ≤ 12 * X + 6 * τR := (abs_sub _ _).trans (by linarith)
    have := sub_ok q p (h3.trans (room hXb5 (by clear hXb5 hXb hM500 he; linarith)))
    have h4 := mul_le_mul_of_nonneg_left h3 hu.le
    have h5 := mul_le_mul_of_nonneg_right hu' hτ0
    rw [show p.real + (q - p).real - q.real = (q - p).real - (q.real - p.real) by ring]
    clear hXb5 hXb hM500 he
    linarith
  have r5 : 6 * X + 3 * τR ≤ 2 ^ 500 := by
    have e : (2 : ℝ) ^ 500 = 1024 * 2 ^ 490 := by rw [show (500 : ℕ) = 10 + 490 by norm_num, pow_add]; norm_num
    have e1 : (1 : ℝ) ≤ 2 ^ 490 := one_le_pow₀ (by norm_num)
    rw [e]
    clear e hXb5 hM500 he
    generalize (2 : ℝ) ^ 490 = G at *
    linarith
  constructor
  · intro hl
    obtain ⟨n, hn1, hnd, hset, hn0, hpos, hlen⟩ := long hl
    have hb : ((T.apply l.end' - T.apply a).length != 0) = true := by simpa using hn0
    obtain ⟨r, hr⟩ : ∃ r : LineSegment Double, r = ⟨⟨n, ⟨n.y, -n.x⟩⟩, T.apply a, (T.apply l.end' - T.apply a).length⟩ := ⟨_, rfl⟩
    have hnew : LineSegment.new eps (T.apply a) (T.apply l.end' - T.apply a) = .ok r := by
      simp only [LineSegment.new, LineSegment.setVector, Vec2.copy_fl, hb, if_true, hset, hr]
    have himul : l.imul eps T = (.ok (), r) := by
      have hp : l.points.2 = l.end' := rfl
      have hp1 : l.points.1 = a := ha'
      simp only [LineSegment.imul, hp, hp1, LineSegment.setVector, Vec2.copy_fl, hb, if_true, hset, hr]
    have hre := end_near he he1 r5 wp wv hnew
    have htr : l.transformed eps T = if r.containsPoint eps (T.apply l.end') then .ok r else .error .valueError := by
      rw [LineSegment.transformed, hpts, fromPoints_double he he1, furthest_one hn0, hnew]
      simp only [List.all_cons, List.all_nil, Bool.and_true]
    have uτ := mul_le_mul_of_nonneg_right hu' hτ0
    refine ⟨r, himul, ?_, ?_, ?_, ?_, ?_, ?_⟩
    · rw [hr]
      exact ⟨p1.1.trans (by clear he hXb5 hXb hM500 r5; linarith), p1.2.trans (by clear he hXb5 hXb hM500 r5; linarith)⟩
    · have h1 := dd _ _ wp.1 wq.1
      have h2 := dd _ _ wp.2 wq.2
      have h3 := hre.1
      have h4 := hre.2
      have h5 := q1.1
      have h6 := q1.2
      change |_ - ((T.apply a).x.real + ((T.apply l.end').x - (T.apply a).x).real)| ≤ _ at h3
      change |_ - ((T.apply a).y.real + ((T.apply l.end').y - (T.apply a).y).real)| ≤ _ at h4
      have fin : ∀ x y z w : ℝ, |x - y| ≤ 22 * uR * (6 * X + 3 * τR) + 4 * θR → |y - z| ≤ 12 * (uR * X) + τR →
          |z - w| ≤ 200 * (uR * X) + τR → |x - w| ≤ g := by
        intro x y z w k1 k2 k3
        have t1 := abs_sub_le x y w
        have t2 := abs_sub_le y z w
        clear he hXb5 hXb hM500 r5
        linarith
      exact ⟨fin _ _ _ _ h3 h1 h5, fin _ _ _ _ h4 h2 h6⟩
    · rw [hr]; exact hn1
    · rw [hr]
    · rw [htr]; split
      · exact Or.inl rfl
      · exact Or.inr rfl
    · intro hge
      rw [htr]
      obtain ⟨d, hd⟩ := exists_dist_seg (toReal (T.apply a))
        ⟨(toReal (T.apply a)).x + (toReal (T.apply l.end' - T.apply a)).x,
          (toReal (T.apply a)).y + (toReal (T.apply l.end' - T.apply a)).y⟩ (toReal (T.apply l.end'))
      have hcon := (C78_segment eps he he1 (T.apply a) (T.apply l.end' - T.apply a) (T.apply l.end') _ r5 wp wv wq r hnew d hd).2.1
      rw [hcon, if_pos rfl]
      have hle := hd.2 ⟨(toReal (T.apply a)).x + (toReal (T.apply l.end' - T.apply a)).x,
          (toReal (T.apply a)).y + (toReal (T.apply l.end' - T.apply a)).y⟩ ⟨1, zero_le_one, le_rfl, by ring, by ring⟩
      have h1 := dd _ _ wp.1 wq.1
      have h2 := dd _ _ wp.2 wq.2
      rw [abs_sub_comm] at h1 h2
      have hgap : gap (toReal (T.apply l.end'))
          ⟨(toReal (T.apply a)).x + (toReal (T.apply l.end' - T.apply a)).x,
          (toReal (T.apply a)).y + (toReal (T.apply l.end' - T.apply a)).y⟩ ≤ 3 / 2 * (12 * (uR * X) + τR) :=
        norm_within h1 h2
      have e1 : (6 * X + 3 * τR) / 2 ^ 46 = 128 * (6 * (uR * X)) + 384 * (uR * τR) := by unfold uR; ring
      have e2 : (1 : ℝ) / 2 ^ 490 ≤ 1 / 1024 * g := by
        have : (1 : ℝ) / 2 ^ 490 = 1 / 1024 * (1 / 2 ^ 480) := by
          rw [show 490 = 10 + 480 by norm_num, inv_pow_split]
          generalize (1 : ℝ) / 2 ^ 480 = z
          norm_num
        rw [this]
        exact mul_le_mul_of_nonneg_left g480 (by norm_num)
      rw [e1]
      generalize (1 : ℝ) / 2 ^ 490 = z at *
      clear he hXb5 hXb hM500 r5 g480
      linarith
  · intro hlow hl
    have hset := short hl
    have hn0 : (T.apply l.end' - T.apply a).length ≠ 0 := by
      intro h0
      have h5 : (2 : ℝ) ^ 500 ≤ 2 ^ 510 := pow_le_real (by norm_num)
      have := length_double (T.apply l.end' - T.apply a) (wv.1.trans (r5.trans h5)) (wv.2.trans (r5.trans h5))
      rw [h0, real_zero] at this
      have h1 := (abs_le.mp this).1
      have hr := Real.sqrt_nonneg ((T.apply l.end' - T.apply a).x.real * (T.apply l.end' - T.apply a).x.real +
        (T.apply l.end' - T.apply a).y.real * (T.apply l.end' - T.apply a).y.real)
      have h2 := mul_le_mul_of_nonneg_right hu' hr
      have h3 := (abs_le.mp (vlen_near w1)).1
      simp only [vlen, toReal] at h3 hlow
      clear he hXb5 hXb hM500 r5 h5 g480
      linarith
    have hb : ((T.apply l.end' - T.apply a).length != 0) = true := by simpa using hn0
    constructor
    · rw [LineSegment.transformed, hpts, fromPoints_double he he1, furthest_one hn0]
      simp only [LineSegment.new, LineSegment.setVector, Vec2.copy_fl, hb, if_true, hset]
    · have hp : l.points.2 = l.end' := rfl
      have hp1 : l.points.1 = a := ha'
      simp only [LineSegment.imul, hp, hp1, LineSegment.setVector, Vec2.copy_fl, hb, if_true, hset]

/-- A direction is never longer than two. -/
theorem dir_small {x y : ℝ} {n : Vec2 Double} (h : NearDir x y n) : |n.x.real| ≤ 2 ∧ |n.y.real| ≤ 2 := by
  have hcs := unit_of_div h.pos
  have hc := unit_comp hcs
  have hs : |y / √(x * x + y * y)| ≤ 1 := unit_comp (s := x / √(x * x + y * y)) (by linarith)
  have hu := uR_small
  have hu0 := uR_pos
  have hη := ηR_small
  have hη0 := ηR_pos
  have one : ∀ p c : ℝ, |c| ≤ 1 → |p - c| ≤ 5 * uR * |c| + ηR → |p| ≤ 2 := by
    intro p c h1 h2
    have := abs_sub_abs_le_abs_sub p c
    have := mul_le_mul_of_nonneg_left h1 hu0.le
    linarith
  exact ⟨one _ _ hc h.px, one _ _ hs h.py⟩

theorem setDirection_zero {eps : Double} (he : 1 / 2 ^ 500 ≤ eps.real) (he1 : eps.real ≤ 1 / 2) (p : Vec2 Double)
    (s : Lin Double) : s.setDirection eps (p - p) = (.error .valueError, s) := by
  have e : p - p = ⟨0, 0⟩ := Vec2.ext (f_sub_self _) (f_sub_self _)
  have h0 : vlen (toReal (⟨0, 0⟩ : Vec2 Double)) = 0 := by simp [vlen, toReal, real_zero]
  have ep := (eps_small he).1
  refine setDirection_near he he1 ?_ ?_ s
  · rw [e]
    have : (0 : Double).Finite := finite_of (M := 2 ^ 1) (pow_lt_real (by norm_num)) (by rw [real_zero]; norm_num)
    exact ⟨this, this⟩
  · rw [e, h0]
    exact mul_nonneg ep.le (by norm_num)

/-- **C95** is violated as it stands: no ray that starts at a point with both coordinates `2 ^ 56` (`7.2e16`) or more can be
transformed, not even by the identity: ValueError, for every such ray and every transform. -/
theorem C95_violated (eps : Double) (he : 1 / 2 ^ 500 ≤ eps.real) (he1 : eps.real ≤ 1 / 2) (a v : Vec2 Double)
    (hv : FiniteVec v) (l : Ray Double) (h : Ray.new eps a v = .ok l) (hx : 2 ^ 56 ≤ |a.x.real|) (hy : 2 ^ 56 ≤ |a.y.real|)
    (ha : Within (2 ^ 400) a) (T : Affine Double) (hT : WithinT (2 ^ 400) T) :
    l.transformed eps T = .error .valueError ∧ l.imul eps T = (.error .valueError, l) := by
  obtain ⟨hd, hn, ha'⟩ := new_ray he he1 hv h
  obtain ⟨d1, d2⟩ := dir_small hd
  have h4 : (2 : ℝ) ^ 400 ≤ 2 ^ 1000 := pow_le_real (by norm_num)
  have hs : a + l.direction = a := Vec2.ext (absorb hx (ha.1.trans h4) d1) (absorb hy (ha.2.trans h4) d2)
  have hp2 : l.points.2 = a := by rw [← hs, ← ha']; rfl
  have hp1 : l.points.1 = a := ha'
  constructor
  · have : T.applyPts [l.points.1, l.points.2] = List.replicate 2 (T.apply a) := by rw [hp1, hp2]; rfl
    rw [Ray.transformed, this]
    exact (C78_from_points_same eps 2 (T.apply a)).2
  · simp only [Ray.imul, hp1, hp2, Ray.setDirection, setDirection_zero he he1]

/-- **C95** the same for lines whose point nearest to the origin (the first of `line.points`) has both coordinates `2 ^ 56` or
more. -/
theorem C95_line_violated (eps : Double) (he : 1 / 2 ^ 500 ≤ eps.real) (he1 : eps.real ≤ 1 / 2) (a v : Vec2 Double)
    (hv : FiniteVec v) (l : Line Double) (h : Line.new eps a v = .ok l) (hx : 2 ^ 56 ≤ |l.points.1.x.real|)
    (hy : 2 ^ 56 ≤ |l.points.1.y.real|) (ha : Within (2 ^ 400) l.points.1) (T : Affine Double) (hT : WithinT (2 ^ 400) T) :
    l.transformed eps T = .error .valueError ∧ l.imul eps T = (.error .valueError, l) := by
  obtain ⟨hd, hn, ho⟩ := new_line he he1 hv h
  obtain ⟨d1, d2⟩ := dir_small hd
  have h4 : (2 : ℝ) ^ 400 ≤ 2 ^ 1000 := pow_le_real (by norm_num)
  have hp2 : l.points.2 = l.points.1 := Vec2.ext (absorb hx (ha.1.trans h4) d1) (absorb hy (ha.2.trans h4) d2)
  constructor
  · have : T.applyPts [l.points.1, l.points.2] = List.replicate 2 (T.apply l.points.1) := by rw [hp2]; rfl
    rw [Line.transformed, this]
    exact (C78_from_points_same eps 2 _).1
  · simp only [Line.imul, hp2, Line.setDirection, setDirection_zero he he1]

/-- A case of `C95_violated`: the ray from `(2 ^ 60, 2 ^ 60)` towards `(3, 4)` exists, and the identity cannot be applied to
it. -/
example : ∃ l, Ray.new (dbl (1 / 100000)) (dvec (2 ^ 60) (2 ^ 60)) (dvec 3 4) = .ok l ∧
    l.transformed (dbl (1 / 100000)) Affine.identity = .error .valueError := by
  have n3 : (dbl 3).real = 3 := by simpa using dbl_int 3 (by norm_num)
  have n4 : (dbl 4).real = 4 := by simpa using dbl_int 4 (by norm_num)
  have n60 : (dbl (2 ^ 60)).real = 2 ^ 60 := by
    have := double_float 1 60 (by norm_num) (by norm_num) (by norm_num)
    show ((double.rnd (2 ^ 60) : ℚ) : ℝ) = 2 ^ 60
    rw [show ((1 : ℤ) : ℚ) * 2 ^ (60 : ℤ) = 2 ^ 60 by norm_num] at this
    rw [this]; push_cast; rfl
  obtain ⟨h1, h2⟩ := dbl_eps
  have l5 : vlen (toReal (dvec 3 4)) = 5 := by
    rw [vlen_def]; simp only [dvec, n3, n4]
    rw [show (3 : ℝ) * 3 + 4 * 4 = 5 * 5 by norm_num, Real.sqrt_mul_self (by norm_num)]
  have he : 1 / 2 ^ 500 ≤ (dbl (1 / 100000)).real := (inv_pow_le (show 17 ≤ 500 by norm_num)).trans h1
  have he1 : (dbl (1 / 100000)).real ≤ 1 / 2 := h2.trans (by norm_num)
  have hf : FiniteVec (dvec 3 4) := by
    constructor
    · exact finite_of (M := 2 ^ 3) (pow_lt_real (by norm_num)) (by show |(dbl 3).real| ≤ _; rw [n3]; norm_num)
    · exact finite_of (M := 2 ^ 3) (pow_lt_real (by norm_num)) (by show |(dbl 4).real| ≤ _; rw [n4]; norm_num)
  obtain ⟨-, ⟨l, hl⟩, -⟩ := (C78_constructors (dbl (1 / 100000)) he he1 (dvec (2 ^ 60) (2 ^ 60)) (dvec 3 4) hf).1
    (by
      rw [l5]
      have : (dbl (1 / 100000)).real * (1 + 1 / 2 ^ 50) ≤ 1 / 2 * 2 := by
        refine mul_le_mul he1 ?_ ?_ (by norm_num) <;> norm_num
      linarith)
    (by
      rw [l5]
      calc (5 : ℝ) ≤ 2 ^ 3 := by norm_num
        _ ≤ 2 ^ 510 := pow_le_real (by norm_num))
  have big : 2 ^ 56 ≤ |(dbl (2 ^ 60)).real| := by rw [n60, abs_of_nonneg (by norm_num)]; norm_num
  have bnd : |(dbl (2 ^ 60)).real| ≤ 2 ^ 400 := by rw [n60, abs_of_nonneg (by norm_num)]; exact pow_le_real (by norm_num)
  have o : (1 : ℝ) ≤ 2 ^ 400 := one_le_pow₀ (by norm_num)
  have z0 : |(0 : Double).real| ≤ 2 ^ 400 := by rw [real_zero, abs_zero]; exact zero_le_one.trans o
  have z1 : |(1 : Double).real| ≤ 2 ^ 400 := by rw [real_one, abs_one]; exact o
  have hid : (Affine.identity : Affine Double) = ⟨1, 0, 0, 0, 1, 0⟩ := by
    simp only [Affine.identity, Affine.mk', f_mul_one]
  rw [hid]
  exact ⟨l, hl, (C95_violated _ he he1 _ _ hf l hl big big ⟨bnd, bnd⟩ ⟨1, 0, 0, 0, 1, 0⟩ ⟨z1, z0, z0, z0, z1, z0⟩).1⟩

/-- A case of the partial theorems: the ray from `(1, 2)` towards `(3, 4)` under a transform that turns, stretches by 5 and
moves: the result starts within `2 ^ -30` of `(5, 30)`, and its direction is within `2 ^ -30` of `(-7 / 25, 24 / 25)`. -/
example : ∃ l r, Ray.new (dbl (1 / 100000)) (dvec 1 2) (dvec 3 4) = .ok l ∧
    l.transformed (dbl (1 / 100000)) exT = .ok r ∧ l.imul (dbl (1 / 100000)) exT = (.ok (), r) ∧
    CloseTo (1 / 2 ^ 30) r.anchor ⟨5, 30⟩ ∧ CloseTo (1 / 2 ^ 30) r.direction ⟨-7 / 25, 24 / 25⟩ := by
  have n1 : (dbl 1).real = 1 := by simpa using dbl_int 1 (by norm_num)
  have n2 : (dbl 2).real = 2 := by simpa using dbl_int 2 (by norm_num)
  have n3 : (dbl 3).real = 3 := by simpa using dbl_int 3 (by norm_num)
  have n4 : (dbl 4).real = 4 := by simpa using dbl_int 4 (by norm_num)
  have m4 : (dbl (-4)).real = -4 := by simpa using dbl_int (-4) (by norm_num)
  have n10 : (dbl 10).real = 10 := by simpa using dbl_int 10 (by norm_num)
  have n20 : (dbl 20).real = 20 := by simpa using dbl_int 20 (by norm_num)
  obtain ⟨h1, h2⟩ := dbl_eps
  have l5 : vlen (toReal (dvec 3 4)) = 5 := by
    rw [vlen_def]; simp only [dvec, n3, n4]
    rw [show (3 : ℝ) * 3 + 4 * 4 = 5 * 5 by norm_num, Real.sqrt_mul_self (by norm_num)]
  have he : 1 / 2 ^ 500 ≤ (dbl (1 / 100000)).real := (inv_pow_le (show 17 ≤ 500 by norm_num)).trans h1
  have he1 : (dbl (1 / 100000)).real ≤ 1 / 2 := h2.trans (by norm_num)
  have hf : FiniteVec (dvec 3 4) := by
    constructor
    · exact finite_of (M := 2 ^ 3) (pow_lt_real (by norm_num)) (by show |(dbl 3).real| ≤ _; rw [n3]; norm_num)
    · exact finite_of (M := 2 ^ 3) (pow_lt_real (by norm_num)) (by show |(dbl 4).real| ≤ _; rw [n4]; norm_num)
  have hsmall : (dbl (1 / 100000)).real * (1 + 1 / 2 ^ 49) ≤ 1 := by
    have : (dbl (1 / 100000)).real * (1 + 1 / 2 ^ 49) ≤ 1 / 2 * 2 := by
      refine mul_le_mul he1 ?_ ?_ (by norm_num) <;> norm_num
    linarith
  obtain ⟨-, ⟨l, hl⟩, -⟩ := (C78_constructors (dbl (1 / 100000)) he he1 (dvec 1 2) (dvec 3 4) hf).1
    (by
      rw [l5]
      have : (dbl (1 / 100000)).real * (1 + 1 / 2 ^ 50) ≤ 1 / 2 * 2 := by
        refine mul_le_mul he1 ?_ ?_ (by norm_num) <;> norm_num
      linarith)
    (by
      rw [l5]
      calc (5 : ℝ) ≤ 2 ^ 3 := by norm_num
        _ ≤ 2 ^ 510 := pow_le_real (by norm_num))
  have p240 : (32 : ℝ) ≤ 2 ^ 240 := by
    calc (32 : ℝ) = 2 ^ 5 := by norm_num
      _ ≤ _ := pow_le_real (by norm_num)
  have hT : WithinT 20 exT := by
    refine ⟨?_, ?_, ?_, ?_, ?_, ?_⟩ <;> simp only [exT, n3, n4, m4, n10, n20] <;> norm_num
  have ha : Within 2 (dvec 1 2) := by
    constructor
    · show |(dbl 1).real| ≤ 2; rw [n1]; norm_num
    · show |(dbl 2).real| ≤ 2; rw [n2]; norm_num
  have hg : (20 * (2 + 1) / 2 ^ 44 + 1 / 2 ^ 480 : ℝ) ≤ 1 / 2 ^ 37 := by
    have := inv_pow_le (show 44 ≤ 480 by norm_num)
    refine (add_le_add le_rfl this).trans ?_
    norm_num
  have hW : mapVec exT (dirOf (toReal (dvec 3 4))) = ⟨-7 / 5, 24 / 5⟩ := by
    simp only [mapVec, dirOf, l5]
    simp only [toReal, dvec, exT, n3, n4, m4]
    refine Vec2.ext ?_ ?_
    · show (3 / 5 * 3 + 4 / 5 * -4 : ℝ) = -7 / 5; norm_num
    · show (3 / 5 * 4 + 4 / 5 * 3 : ℝ) = 24 / 5; norm_num
  have hWl : vlen (⟨-7 / 5, 24 / 5⟩ : Vec2 ℝ) = 5 := by
    simp only [vlen]
    rw [show (-7 / 5 : ℝ) * (-7 / 5) + 24 / 5 * (24 / 5) = 5 * 5 by norm_num, Real.sqrt_mul_self (by norm_num)]
  have key := (C95_ray_partial (dbl (1 / 100000)) he he1 (dvec 1 2) (dvec 3 4) hf l hl exT 20 2
    (le_trans (by norm_num) p240) (le_trans (by norm_num) p240) hT ha _ rfl _ rfl).1
  rw [hW, hWl] at key
  generalize (20 * (2 + 1) / 2 ^ 44 + 1 / 2 ^ 480 : ℝ) = g at *
  clear p240 he
  norm_num at hg
  obtain ⟨r, q, w, k1, k2, -, k4, k5, -, k7, -⟩ := key (by linarith)
  have hI : mapPt exT (toReal (dvec 1 2)) = ⟨5, 30⟩ := by
    simp only [mapPt, toReal, exT, dvec, n1, n2, n3, n4, m4, n10, n20]
    refine Vec2.ext ?_ ?_ <;> norm_num
  have hU : dirOf (⟨-7 / 5, 24 / 5⟩ : Vec2 ℝ) = ⟨-7 / 25, 24 / 25⟩ := by
    simp only [dirOf, hWl]
    refine Vec2.ext ?_ ?_
    · show (-7 / 5 / 5 : ℝ) = -7 / 25; norm_num
    · show (24 / 5 / 5 : ℝ) = 24 / 25; norm_num
  rw [hI] at k5
  rw [hU] at k7
  refine ⟨l, r, hl, k1, k2, ?_, ?_⟩
  · rw [k4]
    have : g ≤ 1 / 2 ^ 30 := hg.trans (by norm_num)
    exact ⟨k5.1.trans this, k5.2.trans this⟩
  · have : 3 * g / 5 + 1 / 2 ^ 50 ≤ 1 / 2 ^ 30 := by norm_num; linarith
    exact ⟨k7.1.trans this, k7.2.trans this⟩

end Planar
