import Verif.Lemmas.FloatClose
/- Property C78: unit vectors, lines, rays and segments in double precision. -/
set_option linter.unusedSectionVars false
namespace Planar
open Spec

/-- The square root can be computed as assumed. -/
theorem sqrt_near (a : Double) (h0 : 0 ≤ a) (hf : a.Finite) : ∃ d : Double, |d.real - √a.real| ≤ 1 / 2 ^ 52 * √a.real := by
  have ha : 0 ≤ a.real := by rw [← real_zero]; exact real_le.mpr h0
  rcases eq_or_lt_of_le ha with he | hpos
  · refine ⟨0, ?_⟩
    rw [← he, Real.sqrt_zero, real_zero]; simp
  · have hs := Real.sqrt_pos.mpr hpos
    have hu := uR_pos
    obtain ⟨q, q1, q2⟩ := exists_rat_btwn (show √a.real < √a.real * (1 + 1 / 1000 * uR) by nlinarith [mul_pos hs hu])
    have hmin : 1 / (2 : ℝ) ^ 1074 ≤ a.real := by
      obtain ⟨n, hn⟩ := double_mult a
      have e1 : (1 : ℚ) / 2 ^ 1074 = 2 ^ (-1074 : ℤ) := by rw [zpow_neg, one_div]; rfl
      have hp : (0 : ℚ) < 1 / 2 ^ 1074 := by positivity
      have hpv : (0 : ℚ) < a.val := Rat.cast_pos.mp (show (0 : ℝ) < (a.val : ℝ) from hpos)
      rw [← e1] at hn
      have hn1 : (1 : ℚ) ≤ n := by
        rw [hn] at hpv
        have : (0 : ℚ) < n := (pos_iff_pos_of_mul_pos hpv).mpr hp
        exact_mod_cast this
      have : (1 : ℚ) / 2 ^ 1074 ≤ a.val := by rw [hn]; exact le_mul_of_one_le_left hp.le hn1
      have hc : ((1 / 2 ^ 1074 : ℚ) : ℝ) ≤ (a.val : ℝ) := Rat.cast_le.mpr this
      push_cast at hc
      exact hc
    have hs1 : 1 / (2 : ℝ) ^ 537 ≤ √a.real := by
      apply Real.le_sqrt_of_sq_le
      rw [div_pow, one_pow, ← pow_mul]
      exact hmin
    have hη : 1000 * ηR ≤ uR * √a.real := by
      have e : ηR = 1 / 2 ^ 485 * (uR * (1 / 2 ^ 537)) := by
        have key : ∀ i j k l : ℕ, l = i + (j + k) → 1 / (2 : ℝ) ^ l = 1 / 2 ^ i * (1 / 2 ^ j * (1 / 2 ^ k)) := by
          intro i j k l h; rw [h, inv_pow_split, inv_pow_split]
        exact key 485 53 537 1075 (by norm_num)
      have h1 : 1000 * (1 / (2 : ℝ) ^ 485) ≤ 1 := by
        calc 1000 * (1 / (2 : ℝ) ^ 485) ≤ 1000 * (1 / 2 ^ 10) :=
              mul_le_mul_of_nonneg_left (inv_pow_le (by norm_num)) (by norm_num)
          _ ≤ 1 := by norm_num
      rw [e, ← mul_assoc]
      refine (mul_le_of_le_one_left (by positivity) h1).trans ?_
      exact mul_le_mul_of_nonneg_left hs1 hu.le
    have hbig : √a.real ≤ 2 ^ 512 := by
      refine Real.sqrt_le_iff.mpr ⟨by positivity, ?_⟩
      rw [← pow_mul]
      have hf' : |a.val| < 2 ^ 1024 := hf
      have : ((|a.val| : ℚ) : ℝ) < ((2 ^ 1024 : ℚ) : ℝ) := Rat.cast_lt.mpr hf'
      push_cast at this
      exact (le_abs_self _).trans this.le
    have hu' := uR_small
    have hq0 : 0 < (q : ℝ) := hs.trans q1
    have hq2 : (q : ℝ) ≤ 2 * √a.real := by nlinarith
    have hr := rnd_ok (x := q) (by
      rw [abs_of_pos hq0]
      calc (q : ℝ) ≤ 2 * √a.real := hq2
        _ ≤ 2 * 2 ^ 512 := mul_le_mul_of_nonneg_left hbig (by norm_num)
        _ = 2 ^ 513 := (pow_succ' _ _).symm
        _ ≤ 2 ^ 1023 := pow_le_real (by norm_num))
    rw [abs_of_pos hq0] at hr
    refine ⟨Fl.round double q, ?_⟩
    have e : 1 / (2 : ℝ) ^ 52 = 2 * uR := by norm_num [uR]
    rw [e]
    have hd : (Fl.round double q).real = ((double.rnd q : ℚ) : ℝ) := rfl
    rw [hd]
    obtain ⟨r1, r2⟩ := abs_le.mp hr
    have h1 : uR * (q : ℝ) ≤ uR * (√a.real * (1 + 1 / 1000 * uR)) := mul_le_mul_of_nonneg_left q2.le hu.le
    have h2 : uR * (uR * √a.real) ≤ 1 / 1000 * (uR * √a.real) := mul_le_mul_of_nonneg_right hu' (by positivity)
    have h3 : 0 < uR * √a.real := mul_pos hu hs
    clear hbig hs1 hmin
    refine abs_le.mpr ⟨?_, ?_⟩ <;> nlinarith

/-- The assumption on square roots can be met. -/
theorem sqrtOk_exists : ∃ i : PyMath Double, @SqrtOk i := by
  classical
  let f : Double → Double := fun a =>
    if h : 0 ≤ a ∧ a.Finite then Classical.choose (sqrt_near a h.1 h.2) else dinf
  letI i : PyMath Double := ⟨f, fun _ => none, fun _ _ => 0, fun _ => 0, fun _ => 0, fun _ => 0, fun _ _ => 0, fun _ => 0, fun _ => 0,
    fun _ _ => 0, fun _ _ => 0, fun _ => 0⟩
  refine ⟨i, ⟨?_, ?_⟩⟩
  · intro a h0 hf
    show |(f a).real - _| ≤ _
    simp only [f, dif_pos (And.intro h0 hf)]
    exact Classical.choose_spec (sqrt_near a h0 hf)
  · show f dinf = dinf
    have : ¬ (0 ≤ dinf ∧ dinf.Finite) := by
      rintro ⟨-, h⟩
      rw [Fl.Finite, dinf_val, abs_of_pos (by positivity)] at h
      exact absurd h (not_lt.mpr (pow_le_pow_right₀ (by norm_num) (by norm_num)))
    simp only [f, dif_neg this]

variable [PyMath Double] [SqrtOk]

/-- **C78** `normalized` never raises. It returns the null vector or the unit vector along `v` up to rounding; the null
vector for what is shorter than EPSILON by a relative `2 ^ -50`, the unit vector for what is longer than EPSILON by that much
-- but the null vector also for vectors of length `2 ^ 513` (about `2.7e154`) and more, whose squares overflow. -/
theorem C78_normalized (eps : Double) (he : 1 / 2 ^ 500 ≤ eps.real) (hef : eps.Finite) (v : Vec2 Double)
    (hv : FiniteVec v) :
    ∃ n, v.normalized eps = .ok n ∧ (n = Vec2.null ∨ CloseDir (toReal v) (toReal n)) ∧
      (vlen (toReal v) ≤ eps.real * (1 - 1 / 2 ^ 50) → n = Vec2.null) ∧
      (eps.real * (1 + 1 / 2 ^ 50) ≤ vlen (toReal v) → vlen (toReal v) ≤ 2 ^ 510 → CloseDir (toReal v) (toReal n)) ∧
      (2 ^ 513 ≤ vlen (toReal v) → n = Vec2.null) := by
  have ep := (eps_small he).1
  rcases normalized_cases eps v hv he hef with ⟨h1, h2⟩ | ⟨h1, h2, h3, n, hn, hd⟩
  · refine ⟨_, h1, .inl rfl, fun _ => rfl, fun h h' => ?_, fun _ => rfl⟩
    obtain ⟨l1, l2⟩ := long_computed he h h'
    rcases h2 with h2 | h2
    · exact absurd l1 (not_lt.mpr h2)
    · exact absurd h2 l2
  · refine ⟨n, hn, .inr (near_of hd).2, fun h => ?_, fun _ _ => (near_of hd).2, fun h => absurd (huge_computed h) h2⟩
    have := long_of h1 h3 ep
    linarith

/-- A direction and a normal as the classes keep them: close to the direction asked for, and at a right angle exactly. -/
def FrameOf (v : Vec2 Double) (l : Lin Double) : Prop :=
  CloseDir (toReal v) (toReal l.direction) ∧ l.normal = ⟨l.direction.y, -l.direction.x⟩

/-- The same for a normal asked for. -/
def FrameOfNormal (v : Vec2 Double) (l : Lin Double) : Prop :=
  CloseDir (toReal v) (toReal l.normal) ∧ l.normal = ⟨l.direction.y, -l.direction.x⟩

/-- **C78** assigning `direction` (of a line, ray or segment: they share the setter): ValueError and no change, or the
direction becomes the unit vector up to rounding and the normal is that vector turned a quarter clockwise, exactly. Which of
the two is decided by the length of the vector, as for `normalized`. -/
theorem C78_direction (eps : Double) (he : 1 / 2 ^ 500 ≤ eps.real) (he1 : eps.real ≤ 1 / 2) (s : Lin Double)
    (v : Vec2 Double) (hv : FiniteVec v) :
    (s.setDirection eps v = (.error .valueError, s) ∨ ∃ s', s.setDirection eps v = (.ok (), s') ∧ FrameOf v s') ∧
    (vlen (toReal v) ≤ eps.real * (1 - 1 / 2 ^ 50) → s.setDirection eps v = (.error .valueError, s)) ∧
    (eps.real * (1 + 1 / 2 ^ 50) ≤ vlen (toReal v) → vlen (toReal v) ≤ 2 ^ 510 →
      ∃ s', s.setDirection eps v = (.ok (), s') ∧ FrameOf v s') ∧
    (2 ^ 513 ≤ vlen (toReal v) → s.setDirection eps v = (.error .valueError, s)) := by
  have ep := (eps_small he).1
  rcases setDirection_cases eps s v hv he he1 with ⟨h1, h2⟩ | ⟨h1, h2, h3, n, hd, hn⟩
  · refine ⟨.inl h1, fun _ => h1, fun h h' => ?_, fun _ => h1⟩
    obtain ⟨l1, l2⟩ := long_computed he h h'
    rcases h2 with h2 | h2
    · exact absurd l1 (not_lt.mpr h2)
    · exact absurd h2 l2
  · have hf : ∃ s', s.setDirection eps v = (.ok (), s') ∧ FrameOf v s' := ⟨_, hn, (near_of hd).2, rfl⟩
    refine ⟨.inr hf, fun h => ?_, fun _ _ => hf, fun h => absurd (huge_computed h) h2⟩
    have := long_of h1 h3 ep
    linarith

/-- **C78** assigning `normal`. -/
theorem C78_normal (eps : Double) (he : 1 / 2 ^ 500 ≤ eps.real) (he1 : eps.real ≤ 1 / 2) (s : Lin Double)
    (v : Vec2 Double) (hv : FiniteVec v) :
    (s.setNormal eps v = (.error .valueError, s) ∨ ∃ s', s.setNormal eps v = (.ok (), s') ∧ FrameOfNormal v s') ∧
    (vlen (toReal v) ≤ eps.real * (1 - 1 / 2 ^ 50) → s.setNormal eps v = (.error .valueError, s)) ∧
    (eps.real * (1 + 1 / 2 ^ 50) ≤ vlen (toReal v) → vlen (toReal v) ≤ 2 ^ 510 →
      ∃ s', s.setNormal eps v = (.ok (), s') ∧ FrameOfNormal v s') ∧
    (2 ^ 513 ≤ vlen (toReal v) → s.setNormal eps v = (.error .valueError, s)) := by
  have ep := (eps_small he).1
  rcases setNormal_cases eps s v hv he he1 with ⟨h1, h2⟩ | ⟨h1, h2, h3, n, hd, hn⟩
  · refine ⟨.inl h1, fun _ => h1, fun h h' => ?_, fun _ => h1⟩
    obtain ⟨l1, l2⟩ := long_computed he h h'
    rcases h2 with h2 | h2
    · exact absurd l1 (not_lt.mpr h2)
    · exact absurd h2 l2
  · have hf : ∃ s', s.setNormal eps v = (.ok (), s') ∧ FrameOfNormal v s' :=
      ⟨_, hn, (near_of hd).2, by rw [RoundedArith.neg_neg]⟩
    refine ⟨.inr hf, fun h => ?_, fun _ _ => hf, fun h => absurd (huge_computed h) h2⟩
    have := long_of h1 h3 ep
    linarith

theorem new_line {eps : Double} (he : 1 / 2 ^ 500 ≤ eps.real) (he1 : eps.real ≤ 1 / 2) {a v : Vec2 Double}
    (hv : FiniteVec v) {l : Line Double} (h : Line.new eps a v = .ok l) :
    NearDir v.x.real v.y.real l.direction ∧ l.normal = ⟨l.direction.y, -l.direction.x⟩ ∧ l.offset = a.dot l.normal := by
  simp only [Line.new, Lin.ofDirection, Vec2.copy_fl, bind, Except.bind, pure, Except.pure] at h
  rcases setDirection_cases eps ⟨v, v⟩ v hv he he1 with ⟨h1, -⟩ | ⟨-, -, -, n, hd, hn⟩
  · rw [h1] at h; cases h
  · rw [hn] at h
    cases h
    exact ⟨hd, rfl, rfl⟩

theorem new_ray {eps : Double} (he : 1 / 2 ^ 500 ≤ eps.real) (he1 : eps.real ≤ 1 / 2) {a v : Vec2 Double}
    (hv : FiniteVec v) {l : Ray Double} (h : Ray.new eps a v = .ok l) :
    NearDir v.x.real v.y.real l.direction ∧ l.normal = ⟨l.direction.y, -l.direction.x⟩ ∧ l.anchor = a := by
  simp only [Ray.new, Lin.ofDirection, Vec2.copy_fl, bind, Except.bind, pure, Except.pure] at h
  rcases setDirection_cases eps ⟨v, v⟩ v hv he he1 with ⟨h1, -⟩ | ⟨-, -, -, n, hd, hn⟩
  · rw [h1] at h; cases h
  · rw [hn] at h
    cases h
    exact ⟨hd, rfl, rfl⟩

/-- What is far enough from zero for the rounding errors of distances not to count. -/
theorem slackM {M : ℝ} (hM : 0 ≤ M) {k : ℝ} (hk : k ≤ 128) : k * uR * M ≤ M / 2 ^ 46 := by
  have e : M / 2 ^ 46 = 128 * uR * M := by unfold uR; ring
  rw [e]
  exact mul_le_mul_of_nonneg_right (mul_le_mul_of_nonneg_right hk uR_pos.le) hM

theorem slackθ : 9 * θR ≤ 1 / 2 ^ 490 := by
  have key : ∀ c k : ℕ, k = 10 + c → 9 * (1 / (2 : ℝ) ^ k) ≤ 1 / 2 ^ c := by
    intro c k h
    rw [h, inv_pow_split]
    have : (0 : ℝ) ≤ 1 / 2 ^ c := by positivity
    generalize 1 / (2 : ℝ) ^ c = W at *
    norm_num; linarith
  exact key 490 500 (by norm_num)

theorem slackη : 9 * ηR ≤ 1 / 2 ^ 490 := by
  have := ηR_θR; have := slackθ; have := ηR_pos; linarith

/-- **C78** `Line(a, v).distance_to(p)` is the signed distance up to `M / 2 ^ 46`, where `M` bounds the coordinates of `a` and
`p`; its absolute value is the distance to the line. -/
theorem C78_line_distance (eps : Double) (he : 1 / 2 ^ 500 ≤ eps.real) (he1 : eps.real ≤ 1 / 2) (a v p : Vec2 Double)
    (hv : FiniteVec v) (M : ℝ) (hM : M ≤ 2 ^ 500) (ha : Within M a) (hp : Within M p) (l : Line Double)
    (h : Line.new eps a v = .ok l) :
    |(l.distanceTo p).real - signedDist (toReal a) (toReal v) (toReal p)| ≤ M / 2 ^ 46 + 1 / 2 ^ 490 ∧
    ∀ d, IsDist (OnLine (toReal a) (toReal v)) (toReal p) d gap →
      |(pyabs (l.distanceTo p)).real - d| ≤ M / 2 ^ 46 + 1 / 2 ^ 490 := by
  obtain ⟨hd, hn, ho⟩ := new_line he he1 hv h
  have hvp : 0 < vlen (toReal v) := hd.pos
  have key := line_dist hd.unit (hd.vec.mono (by norm_num)) hn ho ha hp hM
  have M0 : 0 ≤ M := (abs_nonneg _).trans ha.1
  have s1 := slackM M0 (k := 41) (by norm_num)
  have s2 := slackη
  have e : (p.x.real - a.x.real) * (v.y.real / √(v.x.real * v.x.real + v.y.real * v.y.real)) -
      (p.y.real - a.y.real) * (v.x.real / √(v.x.real * v.x.real + v.y.real * v.y.real)) =
      signedDist (toReal a) (toReal v) (toReal p) := by
    rw [signedDist, vlen_def]
    simp only [toReal]
    ring
  rw [e] at key
  have key2 : |(l.distanceTo p).real - signedDist (toReal a) (toReal v) (toReal p)| ≤ M / 2 ^ 46 + 1 / 2 ^ 490 :=
    key.trans (add_le_add s1 s2)
  refine ⟨key2, fun d h => ?_⟩
  rw [pyabs_real, dist_line hvp h]
  exact (abs_abs_sub_abs_le _ _).trans key2

/-- **C78** the sides of a line, decided up to that error: left, right, or on it (within EPSILON). -/
theorem C78_line_sides (eps : Double) (he : 1 / 2 ^ 500 ≤ eps.real) (he1 : eps.real ≤ 1 / 2) (a v p : Vec2 Double)
    (hv : FiniteVec v) (M : ℝ) (hM : M ≤ 2 ^ 500) (ha : Within M a) (hp : Within M p) (l : Line Double)
    (h : Line.new eps a v = .ok l) :
    (eps.real + (M / 2 ^ 46 + 1 / 2 ^ 490) ≤ signedDist (toReal a) (toReal v) (toReal p) →
      l.pointRight eps p = true ∧ l.pointLeft eps p = false ∧ l.containsPoint eps p = false) ∧
    (signedDist (toReal a) (toReal v) (toReal p) ≤ -(eps.real + (M / 2 ^ 46 + 1 / 2 ^ 490)) →
      l.pointLeft eps p = true ∧ l.pointRight eps p = false ∧ l.containsPoint eps p = false) ∧
    (|signedDist (toReal a) (toReal v) (toReal p)| < eps.real - (M / 2 ^ 46 + 1 / 2 ^ 490) →
      l.containsPoint eps p = true ∧ l.pointLeft eps p = false ∧ l.pointRight eps p = false) := by
  have key := (C78_line_distance eps he he1 a v p hv M hM ha hp l h).1
  have ep := (eps_small he).1
  generalize signedDist (toReal a) (toReal v) (toReal p) = S at *
  generalize M / 2 ^ 46 + 1 / 2 ^ 490 = g at *
  obtain ⟨k1, k2⟩ := abs_le.mp key
  have hle : (l.distanceTo p ≤ -eps) ↔ (l.distanceTo p).real ≤ -eps.real := by rw [← real_neg]; exact real_le.symm
  have hge : (eps ≤ l.distanceTo p) ↔ eps.real ≤ (l.distanceTo p).real := real_le.symm
  have hab : (pyabs (l.distanceTo p) < eps) ↔ |(l.distanceTo p).real| < eps.real := by
    rw [← pyabs_real]; exact real_lt.symm
  simp only [Line.pointRight, Line.pointLeft, Line.containsPoint, decide_eq_true_eq, decide_eq_false_iff_not, ge_iff_le,
    hle, hge, hab, not_lt, not_le]
  generalize (l.distanceTo p).real = x at *
  clear hM
  refine ⟨fun hs => ⟨by linarith, by linarith, (by linarith : eps.real ≤ x).trans (le_abs_self x)⟩,
    fun hs => ⟨by linarith, by linarith, (by linarith : eps.real ≤ -x).trans (neg_le_abs x)⟩, fun hs => ?_⟩
  obtain ⟨s1, s2⟩ := abs_lt.mp hs
  exact ⟨abs_lt.mpr ⟨by linarith, by linarith⟩, by linarith, by linarith⟩

/-- **C78** `Ray(a, v).distance_to(p)` and `contains_point`. -/
theorem C78_ray (eps : Double) (he : 1 / 2 ^ 500 ≤ eps.real) (he1 : eps.real ≤ 1 / 2) (a v p : Vec2 Double)
    (hv : FiniteVec v) (M : ℝ) (hM : M ≤ 2 ^ 500) (ha : Within M a) (hp : Within M p) (l : Ray Double)
    (h : Ray.new eps a v = .ok l) (d : ℝ) (hd : IsDist (OnRay (toReal a) (toReal v)) (toReal p) d gap) :
    |(l.distanceTo p).real - d| ≤ M / 2 ^ 46 + 1 / 2 ^ 490 ∧
    (d < eps.real - (M / 2 ^ 46 + 1 / 2 ^ 490) → l.containsPoint eps p = true) ∧
    (eps.real + (M / 2 ^ 46 + 1 / 2 ^ 490) ≤ d → l.containsPoint eps p = false) := by
  obtain ⟨hn1, hn, ha'⟩ := new_ray he he1 hv h
  have hvp : 0 < vlen (toReal v) := hn1.pos
  have hdd := dist_ray hvp hd
  have M0 : 0 ≤ M := (abs_nonneg _).trans ha.1
  have key : |(l.distanceTo p).real - d| ≤ M / 2 ^ 46 + 1 / 2 ^ 490 := by
    refine (ray_dist hn1.unit (hn1.vec.mono (by norm_num)) hn (by rw [ha']; exact ha) hp hM
      (by rw [ha']; exact hdd.1) (by rw [ha']; exact hdd.2)).trans ?_
    have s1 := slackM M0 (k := 72) (by norm_num)
    have s2 := slackθ
    have := θR_pos
    exact add_le_add s1 (by linarith)
  refine ⟨key, ?_⟩
  have hlt : (l.distanceTo p < eps) ↔ (l.distanceTo p).real < eps.real := real_lt.symm
  simp only [Ray.containsPoint, decide_eq_true_eq, decide_eq_false_iff_not, hlt]
  generalize M / 2 ^ 46 + 1 / 2 ^ 490 = g at *
  obtain ⟨k1, k2⟩ := abs_le.mp key
  clear hM
  exact ⟨fun hs => by linarith, fun hs => by linarith⟩

theorem new_segment {eps : Double} (he : 1 / 2 ^ 500 ≤ eps.real) (he1 : eps.real ≤ 1 / 2) {a v : Vec2 Double}
    (hv : FiniteVec v) {l : LineSegment Double} (h : LineSegment.new eps a v = .ok l) :
    l.anchor = a ∧ l.normal = ⟨l.direction.y, -l.direction.x⟩ ∧ l.length = v.length ∧
    ((v.length ≠ 0 ∧ NearDir v.x.real v.y.real l.direction ∧
      |v.length.real - √(v.x.real * v.x.real + v.y.real * v.y.real)| ≤
        31 / 10 * uR * √(v.x.real * v.x.real + v.y.real * v.y.real)) ∨
     (v.length = 0 ∧ NearDir 1 0 l.direction)) := by
  by_cases h0 : v.length = 0
  · have hb : (v.length != 0) = false := by rw [h0]; simp
    have h1f : FiniteVec (⟨1, 0⟩ : Vec2 Double) := by
      constructor
      · exact finite_of (M := 2 ^ 1) (pow_lt_real (by norm_num)) (by rw [real_one]; norm_num)
      · exact finite_of (M := 2 ^ 1) (pow_lt_real (by norm_num)) (by rw [real_zero]; norm_num)
    simp only [LineSegment.new, LineSegment.setVector, Vec2.copy_fl, hb, Bool.false_eq_true, if_false] at h
    rcases setDirection_cases eps ⟨v, v⟩ ⟨1, 0⟩ h1f he he1 with ⟨h1, -⟩ | ⟨-, -, -, n, hd, hn⟩
    · rw [h1] at h; cases h
    · rw [hn] at h
      cases h
      rw [real_one, real_zero] at hd
      exact ⟨rfl, rfl, rfl, .inr ⟨h0, hd⟩⟩
  · have hb : (v.length != 0) = true := by simp [h0]
    simp only [LineSegment.new, LineSegment.setVector, Vec2.copy_fl, hb, if_true] at h
    rcases setDirection_cases eps ⟨v, v⟩ v hv he he1 with ⟨h1, -⟩ | ⟨-, -, h3, n, hd, hn⟩
    · rw [h1] at h; cases h
    · rw [hn] at h
      cases h
      exact ⟨rfl, rfl, rfl, .inl ⟨h0, hd, h3⟩⟩

/-- **C78** `LineSegment(a, v).distance_to(p)` and `contains_point`; `M` bounds the coordinates of `a`, `v` and `p`. -/
theorem C78_segment (eps : Double) (he : 1 / 2 ^ 500 ≤ eps.real) (he1 : eps.real ≤ 1 / 2) (a v p : Vec2 Double)
    (M : ℝ) (hM : M ≤ 2 ^ 500) (ha : Within M a) (hv : Within M v) (hp : Within M p) (l : LineSegment Double)
    (h : LineSegment.new eps a v = .ok l) (d : ℝ)
    (hd : IsDist (OnSeg (toReal a) ⟨(toReal a).x + (toReal v).x, (toReal a).y + (toReal v).y⟩) (toReal p) d gap) :
    |(l.distanceTo p).real - d| ≤ M / 2 ^ 46 + 1 / 2 ^ 490 ∧
    (d < eps.real - (M / 2 ^ 46 + 1 / 2 ^ 490) → l.containsPoint eps p = true) ∧
    (eps.real + (M / 2 ^ 46 + 1 / 2 ^ 490) ≤ d → l.containsPoint eps p = false) := by
  have M0 : 0 ≤ M := (abs_nonneg _).trans ha.1
  have hfin : FiniteVec v := by
    have : (2 : ℝ) ^ 500 < 2 ^ 1024 := pow_lt_real (by norm_num)
    exact ⟨finite_of (hM.trans_lt this) hv.1, finite_of (hM.trans_lt this) hv.2⟩
  obtain ⟨ha', hn, hl, hc⟩ := new_segment he he1 hfin h
  have s1 := slackM M0 (k := 112) (by norm_num)
  have s2 := slackθ
  have hθ := θR_pos
  have key : |(l.distanceTo p).real - d| ≤ M / 2 ^ 46 + 1 / 2 ^ 490 := by
    rcases hc with ⟨h0, hdir, hL⟩ | ⟨h0, hdir⟩
    · have hdd := dist_seg (v := toReal v) hdir.pos hd
      refine (seg_dist hdir.unit (hdir.vec.mono (by norm_num)) hn (Real.sqrt_nonneg _) (norm_within hv.1 hv.2)
        (by rw [hl]; exact hL) (by rw [ha']; exact ha) hp hM (by rw [ha']; exact hdd.1) (by rw [ha']; exact hdd.2.1)
        (by rw [ha']; exact hdd.2.2)).trans ?_
      exact add_le_add s1 (by linarith)
    · -- the vector is too short for its length to be computed
      have hshort : √(v.x.real * v.x.real + v.y.real * v.y.real) ≤ 3 * θR := by
        have h5 : (2 : ℝ) ^ 500 ≤ 2 ^ 510 := pow_le_real (by norm_num)
        have := length_double v (hv.1.trans (hM.trans h5)) (hv.2.trans (hM.trans h5))
        rw [h0, real_zero] at this
        have h1 := (abs_le.mp this).1
        have hr := Real.sqrt_nonneg (v.x.real * v.x.real + v.y.real * v.y.real)
        have h2 := mul_le_mul_of_nonneg_right uR_small hr
        clear h5 hM
        linarith
      have hu1 : (1 : ℝ) * 1 + 0 * 0 = 1 := by norm_num
      have hs1 : √((1 : ℝ) * 1 + 0 * 0) = 1 := by rw [hu1]; exact Real.sqrt_one
      have hvec := hdir.vec.mono (k' := 8) (by norm_num)
      rw [hs1, div_one, div_one] at hvec
      have hr : |(l.distanceTo p).real - √((p.x.real - a.x.real) * (p.x.real - a.x.real) +
          (p.y.real - a.y.real) * (p.y.real - a.y.real))| ≤ 112 * uR * M + 6 * θR := by
        refine seg_dist (k := 0) (c := 1) (s := 0) hu1 hvec hn le_rfl (by linarith)
          (by rw [hl, h0, real_zero]; simp) (by rw [ha']; exact ha) hp hM ?_ ?_ ?_
        · intro _; rw [ha']
        · intro _ _; rw [ha']; simp
        · intro q1 q2
          rw [ha'] at q1 q2 ⊢
          have hx : p.x.real - a.x.real = 0 := by linarith
          rw [hx]; simp
          rw [Real.sqrt_mul_self_eq_abs, abs_sub_comm]
      have hdr : |√((p.x.real - a.x.real) * (p.x.real - a.x.real) + (p.y.real - a.y.real) * (p.y.real - a.y.real)) - d| ≤
          3 * θR := by
        obtain ⟨⟨q, ⟨t, t0, t1, qx, qy⟩, hq⟩, hm⟩ := hd
        have hstart := hm (toReal a) ⟨0, le_rfl, zero_le_one, by simp, by simp⟩
        have e1 : gap (toReal p) (toReal a) = √((p.x.real - a.x.real) * (p.x.real - a.x.real) +
          (p.y.real - a.y.real) * (p.y.real - a.y.real)) := rfl
        rw [e1] at hstart
        -- the two distances differ by at most the length
        have htri : √((p.x.real - a.x.real) * (p.x.real - a.x.real) + (p.y.real - a.y.real) * (p.y.real - a.y.real)) ≤
            d + √(v.x.real * v.x.real + v.y.real * v.y.real) := by
          rw [← hq]
          have := gap_triangle (toReal p) q (toReal a)
          rw [e1] at this
          refine this.trans (add_le_add le_rfl ?_)
          have e2 : gap q (toReal a) = √(t * t * (v.x.real * v.x.real + v.y.real * v.y.real)) := by
            rw [gap, vlen]
            congr 1
            simp only
            rw [qx, qy]
            simp only [toReal]
            ring
          rw [e2, Real.sqrt_mul (mul_self_nonneg t), Real.sqrt_mul_self t0]
          exact mul_le_of_le_one_left (Real.sqrt_nonneg _) t1
        exact abs_le.mpr ⟨by linarith, by linarith⟩
      have t := abs_sub_le (l.distanceTo p).real (√((p.x.real - a.x.real) * (p.x.real - a.x.real) +
          (p.y.real - a.y.real) * (p.y.real - a.y.real))) d
      calc _ ≤ (112 * uR * M + 6 * θR) + 3 * θR := t.trans (add_le_add hr hdr)
        _ = 112 * uR * M + 9 * θR := by ring
        _ ≤ _ := add_le_add s1 s2
  refine ⟨key, ?_⟩
  have hlt : (l.distanceTo p < eps) ↔ (l.distanceTo p).real < eps.real := real_lt.symm
  simp only [LineSegment.containsPoint, decide_eq_true_eq, decide_eq_false_iff_not, hlt]
  clear s1 s2
  generalize M / 2 ^ 46 + 1 / 2 ^ 490 = g at *
  obtain ⟨k1, k2⟩ := abs_le.mp key
  clear hM
  exact ⟨fun hs => by linarith, fun hs => by linarith⟩

/-- **C78** which vectors the three constructors accept: everything longer than EPSILON by a relative `2 ^ -50`, up to
`2 ^ 510`; ValueError for what is shorter by that much (a segment takes a vector whose computed length is zero all the same)
and from `2 ^ 513` on. -/
theorem C78_constructors (eps : Double) (he : 1 / 2 ^ 500 ≤ eps.real) (he1 : eps.real ≤ 1 / 2) (a v : Vec2 Double)
    (hv : FiniteVec v) :
    (eps.real * (1 + 1 / 2 ^ 50) ≤ vlen (toReal v) → vlen (toReal v) ≤ 2 ^ 510 →
      (∃ l, Line.new eps a v = .ok l) ∧ (∃ l, Ray.new eps a v = .ok l) ∧ ∃ l, LineSegment.new eps a v = .ok l) ∧
    (vlen (toReal v) ≤ eps.real * (1 - 1 / 2 ^ 50) →
      Line.new eps a v = .error .valueError ∧ Ray.new eps a v = .error .valueError ∧
      (v.length ≠ 0 → LineSegment.new eps a v = .error .valueError) ∧
      (v.length = 0 → ∃ l, LineSegment.new eps a v = .ok l)) ∧
    (2 ^ 513 ≤ vlen (toReal v) →
      Line.new eps a v = .error .valueError ∧ Ray.new eps a v = .error .valueError ∧
      LineSegment.new eps a v = .error .valueError) := by
  have hd := C78_direction eps he he1 ⟨v, v⟩ v hv
  have hL : ∀ s', Lin.setDirection eps ⟨v, v⟩ v = (.ok (), s') →
      (∃ l, Line.new eps a v = .ok l) ∧ ∃ l, Ray.new eps a v = .ok l := by
    intro s' h
    simp only [Line.new, Ray.new, Lin.ofDirection, Vec2.copy_fl, bind, Except.bind, pure, Except.pure, h]
    exact ⟨⟨_, rfl⟩, _, rfl⟩
  have hE : Lin.setDirection eps ⟨v, v⟩ v = (.error .valueError, ⟨v, v⟩) →
      Line.new eps a v = .error .valueError ∧ Ray.new eps a v = .error .valueError ∧
      (v.length ≠ 0 → LineSegment.new eps a v = .error .valueError) := by
    intro h
    refine ⟨?_, ?_, fun h0 => ?_⟩
    · simp only [Line.new, Lin.ofDirection, Vec2.copy_fl, bind, Except.bind, h]
    · simp only [Ray.new, Lin.ofDirection, Vec2.copy_fl, bind, Except.bind, h]
    · have hb : (v.length != 0) = true := by simp [h0]
      simp only [LineSegment.new, LineSegment.setVector, Vec2.copy_fl, hb, if_true, h]
  have hS0 : v.length = 0 → ∃ l, LineSegment.new eps a v = .ok l := by
    intro h0
    have hb : (v.length != 0) = false := by rw [h0]; simp
    have h1f : FiniteVec (⟨1, 0⟩ : Vec2 Double) := by
      constructor
      · exact finite_of (M := 2 ^ 1) (pow_lt_real (by norm_num)) (by rw [real_one]; norm_num)
      · exact finite_of (M := 2 ^ 1) (pow_lt_real (by norm_num)) (by rw [real_zero]; norm_num)
    have e1 : vlen (toReal (⟨1, 0⟩ : Vec2 Double)) = 1 := by
      simp only [vlen, toReal, real_one, real_zero]
      norm_num
    obtain ⟨s', h, -⟩ := (C78_direction eps he he1 ⟨v, v⟩ ⟨1, 0⟩ h1f).2.2.1
      (by
        rw [e1]
        have : eps.real * (1 + 1 / 2 ^ 50) ≤ 1 / 2 * 2 :=
          mul_le_mul he1 (by norm_num) (by norm_num) (by norm_num)
        linarith)
      (by rw [e1]; exact one_le_pow₀ (by norm_num))
    simp only [LineSegment.new, LineSegment.setVector, Vec2.copy_fl, hb, Bool.false_eq_true, if_false, h]
    exact ⟨_, rfl⟩
  refine ⟨fun h1 h2 => ?_, fun h1 => ?_, fun h1 => ?_⟩
  · obtain ⟨s', h, -⟩ := hd.2.2.1 h1 h2
    refine ⟨(hL s' h).1, (hL s' h).2, ?_⟩
    by_cases h0 : v.length = 0
    · exact hS0 h0
    · have hb : (v.length != 0) = true := by simp [h0]
      simp only [LineSegment.new, LineSegment.setVector, Vec2.copy_fl, hb, if_true, h]
      exact ⟨_, rfl⟩
  · obtain ⟨q1, q2, q3⟩ := hE (hd.2.1 h1)
    exact ⟨q1, q2, q3, hS0⟩
  · obtain ⟨q1, q2, q3⟩ := hE (hd.2.2.2 h1)
    refine ⟨q1, q2, q3 ?_⟩
    rw [Vec2.length, huge_computed h1, SqrtOk.infinite]
    intro h0
    have := congrArg Fl.val h0
    rw [dinf_val] at this
    exact absurd this (by positivity)

end Planar
