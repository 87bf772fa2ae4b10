import Verif.Props.FloatLines
import Verif.Props.FloatGrid
/- Property C78, continued: lines and rays through points, in double precision. -/
set_option linter.unusedSectionVars false
namespace Planar
open Spec

/-- The exact vector from `a` to `b`. -/
noncomputable def Spec.fromTo (a b : Vec2 Double) : Vec2 ℝ := ⟨b.x.real - a.x.real, b.y.real - a.y.real⟩

theorem real_injective {x y : Double} (h : x.real = y.real) : x = y := by
  have : (x.val : ℝ) = (y.val : ℝ) := h
  exact Fl.ext (by exact_mod_cast this)

theorem fromTo_pos {a b : Vec2 Double} (h : a ≠ b) : 0 < vlen (fromTo a b) := by
  refine Real.sqrt_pos.mpr ?_
  simp only [fromTo]
  by_contra hn
  have h1 := mul_self_nonneg (b.x.real - a.x.real)
  have h2 := mul_self_nonneg (b.y.real - a.y.real)
  have e1 : (b.x.real - a.x.real) * (b.x.real - a.x.real) = 0 := by linarith
  have e2 : (b.y.real - a.y.real) * (b.y.real - a.y.real) = 0 := by linarith
  refine h (Vec2.ext (real_injective ?_) (real_injective ?_))
  · have := mul_self_eq_zero.mp e1; linarith
  · have := mul_self_eq_zero.mp e2; linarith

/-- The computed difference of two points. -/
theorem diff_parts {a b : Vec2 Double} {M : ℝ} (hM : M ≤ 2 ^ 500) (ha : Within M a) (hb : Within M b) :
    |(b - a).x.real - (fromTo a b).x| ≤ uR * |(fromTo a b).x| ∧
    |(b - a).y.real - (fromTo a b).y| ≤ uR * |(fromTo a b).y| ∧ |(fromTo a b).x| ≤ 2 ^ 501 ∧ |(fromTo a b).y| ≤ 2 ^ 501 := by
  have key : ∀ p q : ℝ, |p| ≤ M → |q| ≤ M → |p - q| ≤ 2 ^ 501 := by
    intro p q hp hq
    calc |p - q| ≤ |p| + |q| := abs_sub _ _
      _ ≤ 2 ^ 500 + 2 ^ 500 := add_le_add (hp.trans hM) (hq.trans hM)
      _ = 2 ^ 501 := by rw [pow_succ (2 : ℝ) 500]; ring
  have h1023 : (2 : ℝ) ^ 501 ≤ 2 ^ 1023 := pow_le_real (by norm_num)
  have hx := key _ _ hb.1 ha.1
  have hy := key _ _ hb.2 ha.2
  exact ⟨sub_ok b.x a.x (hx.trans h1023), sub_ok b.y a.y (hy.trans h1023), hx, hy⟩

/-- The length of the computed difference. -/
theorem diff_len {x y x' y' : ℝ} (hx : |x' - x| ≤ uR * |x|) (hy : |y' - y| ≤ uR * |y|) :
    (1 - uR) * √(x * x + y * y) ≤ √(x' * x' + y' * y') ∧ √(x' * x' + y' * y') ≤ (1 + uR) * √(x * x + y * y) := by
  have hu := uR_pos
  have hu' := uR_small
  have one : ∀ z z' : ℝ, |z' - z| ≤ uR * |z| → (1 - uR) * |z| ≤ |z'| ∧ |z'| ≤ (1 + uR) * |z| := by
    intro z z' h
    have h1 := abs_sub_abs_le_abs_sub z' z
    have h2 := abs_sub_abs_le_abs_sub z z'
    rw [abs_sub_comm z z'] at h2
    constructor <;> linarith
  have sq : ∀ z z' : ℝ, |z' - z| ≤ uR * |z| → ((1 - uR) * (1 - uR)) * (z * z) ≤ z' * z' ∧
      z' * z' ≤ ((1 + uR) * (1 + uR)) * (z * z) := by
    intro z z' h
    obtain ⟨h1, h2⟩ := one z z' h
    rw [← abs_mul_abs_self z, ← abs_mul_abs_self z']
    have p : 0 ≤ (1 - uR) * |z| := mul_nonneg (by linarith) (abs_nonneg z)
    have e1 := mul_self_le_mul_self p h1
    have e2 := mul_self_le_mul_self (abs_nonneg z') h2
    constructor
    · calc (1 - uR) * (1 - uR) * (|z| * |z|) = (1 - uR) * |z| * ((1 - uR) * |z|) := by ring
        _ ≤ _ := e1
    · calc |z'| * |z'| ≤ (1 + uR) * |z| * ((1 + uR) * |z|) := e2
        _ = _ := by ring
  obtain ⟨x1, x2⟩ := sq x x' hx
  obtain ⟨y1, y2⟩ := sq y y' hy
  have f : ∀ c : ℝ, 0 ≤ c → √(c * c * (x * x + y * y)) = c * √(x * x + y * y) := by
    intro c hc
    rw [Real.sqrt_mul (mul_self_nonneg c), Real.sqrt_mul_self hc]
  constructor
  · rw [← f (1 - uR) (by linarith)]
    exact Real.sqrt_le_sqrt (by linarith)
  · rw [← f (1 + uR) (by linarith)]
    exact Real.sqrt_le_sqrt (by linarith)

theorem firstTwoDistinct_double (k : Nat) (a b : Vec2 Double) (r : List (Vec2 Double)) (hab : a ≠ b) :
    firstTwoDistinct (List.replicate (k + 1) a ++ b :: r) = .ok (a, b, r) := by
  rw [List.replicate_succ, List.cons_append]
  simp only [firstTwoDistinct, Vec2.copy_fl]
  induction k with
  | zero =>
    simp only [List.replicate_zero, List.nil_append, firstTwoDistinct.go, Vec2.copy_fl]
    rw [if_neg (by rw [beq_iff_eq]; exact fun h => hab h.symm)]
  | succ k ih =>
    rw [List.replicate_succ, List.cons_append]
    simp only [firstTwoDistinct.go, Vec2.copy_fl]
    rw [if_pos (by simp)]
    exact ih

theorem firstTwoDistinct_same (k : Nat) (a : Vec2 Double) :
    firstTwoDistinct (List.replicate k a) = .error .valueError := by
  cases k with
  | zero => rfl
  | succ k =>
    rw [List.replicate_succ]
    simp only [firstTwoDistinct, Vec2.copy_fl]
    induction k with
    | zero => rfl
    | succ k ih =>
      rw [List.replicate_succ]
      simp only [firstTwoDistinct.go, Vec2.copy_fl]
      rw [if_pos (by simp)]
      exact ih

theorem exists_dist_seg (a b p : Vec2 ℝ) : ∃ d, IsDist (OnSeg a b) p d gap := by
  have hc : ContinuousOn (fun t : ℝ => gap p ⟨a.x + t * (b.x - a.x), a.y + t * (b.y - a.y)⟩) (Set.Icc 0 1) := by
    apply Continuous.continuousOn
    unfold gap vlen
    fun_prop
  obtain ⟨t, ht, hm⟩ := isCompact_Icc.exists_isMinOn ⟨(0 : ℝ), le_rfl, zero_le_one⟩ hc
  refine ⟨_, ⟨⟨a.x + t * (b.x - a.x), a.y + t * (b.y - a.y)⟩, ⟨t, ht.1, ht.2, rfl, rfl⟩, rfl⟩, ?_⟩
  rintro q ⟨s, s0, s1, hx, hy⟩
  have : q = ⟨a.x + s * (b.x - a.x), a.y + s * (b.y - a.y)⟩ := Vec2.ext hx hy
  rw [this]
  exact hm ⟨s0, s1⟩

theorem seg_shift {a b b' p : Vec2 ℝ} {d d' : ℝ} (h : IsDist (OnSeg a b) p d gap) (h' : IsDist (OnSeg a b') p d' gap) :
    d ≤ d' + gap b' b := by
  obtain ⟨⟨q, ⟨t, t0, t1, hx, hy⟩, rfl⟩, -⟩ := h'
  refine (h.2 ⟨a.x + t * (b.x - a.x), a.y + t * (b.y - a.y)⟩ ⟨t, t0, t1, rfl, rfl⟩).trans ?_
  refine (gap_triangle p q _).trans (add_le_add le_rfl ?_)
  have e : gap q ⟨a.x + t * (b.x - a.x), a.y + t * (b.y - a.y)⟩ = t * gap b' b := by
    rw [gap, gap, vlen, vlen, hx, hy]
    simp only
    rw [show (a.x + t * (b'.x - a.x) - (a.x + t * (b.x - a.x))) * (a.x + t * (b'.x - a.x) - (a.x + t * (b.x - a.x))) +
      (a.y + t * (b'.y - a.y) - (a.y + t * (b.y - a.y))) * (a.y + t * (b'.y - a.y) - (a.y + t * (b.y - a.y))) =
      t * t * ((b'.x - b.x) * (b'.x - b.x) + (b'.y - b.y) * (b'.y - b.y)) by ring,
      Real.sqrt_mul (mul_self_nonneg t), Real.sqrt_mul_self t0]
  rw [e]
  exact mul_le_of_le_one_left (Real.sqrt_nonneg _) t1

theorem gap_comm (p q : Vec2 ℝ) : gap p q = gap q p := by
  rw [gap, gap, vlen, vlen]
  congr 1
  simp only
  ring

variable [PyMath Double] [SqrtOk]

/-- The frame made from two different points. -/
theorem ofDiff {eps : Double} (he : 1 / 2 ^ 500 ≤ eps.real) (he1 : eps.real ≤ 1 / 2) {a b : Vec2 Double} (hab : a ≠ b)
    {M : ℝ} (hM : M ≤ 2 ^ 500) (ha : Within M a) (hb : Within M b) :
    (Lin.ofDirection eps (b - a) = .error .valueError ∨ ∃ l, Lin.ofDirection eps (b - a) = .ok l ∧
      NearVec 8 ((fromTo a b).x / vlen (fromTo a b)) ((fromTo a b).y / vlen (fromTo a b)) l.direction ∧
      l.normal = ⟨l.direction.y, -l.direction.x⟩) ∧
    (vlen (fromTo a b) ≤ eps.real * (1 - 1 / 2 ^ 49) → Lin.ofDirection eps (b - a) = .error .valueError) ∧
    (eps.real * (1 + 1 / 2 ^ 49) ≤ vlen (fromTo a b) → Lin.ofDirection eps (b - a) ≠ .error .valueError) := by
  obtain ⟨dx, dy, bx, by'⟩ := diff_parts hM ha hb
  have hpos := fromTo_pos hab
  have hu := uR_pos
  have hu' := uR_small
  have ep := (eps_small he).1
  have e8 : 1 / (2 : ℝ) ^ 50 = 8 * uR := by norm_num [uR]
  have e16 : 1 / (2 : ℝ) ^ 49 = 16 * uR := by norm_num [uR]
  obtain ⟨l1, l2⟩ := diff_len dx dy
  have hfin : FiniteVec (b - a) := by
    have one : ∀ z z' : ℝ, |z' - z| ≤ uR * |z| → |z| ≤ 2 ^ 501 → |z'| ≤ 2 ^ 502 := by
      intro z z' h h2
      have h1 := abs_sub_abs_le_abs_sub z' z
      have h3 : uR * |z| ≤ 1 * |z| := mul_le_mul_of_nonneg_right (by linarith) (abs_nonneg z)
      rw [pow_succ (2 : ℝ) 501]
      generalize (2 : ℝ) ^ 501 = W at *
      linarith
    have h3 : (2 : ℝ) ^ 502 < 2 ^ 1024 := pow_lt_real (by norm_num)
    exact ⟨finite_of h3 (one _ _ dx bx), finite_of h3 (one _ _ dy by')⟩
  have e1 : √((fromTo a b).x * (fromTo a b).x + (fromTo a b).y * (fromTo a b).y) = vlen (fromTo a b) := rfl
  have e2 : √((b - a).x.real * (b - a).x.real + (b - a).y.real * (b - a).y.real) = vlen (toReal (b - a)) := rfl
  rw [e1, e2] at l1 l2
  have hd := C78_direction eps he he1 ⟨b - a, b - a⟩ (b - a) hfin
  have herr : Lin.setDirection eps ⟨b - a, b - a⟩ (b - a) = (.error .valueError, ⟨b - a, b - a⟩) →
      Lin.ofDirection eps (b - a) = .error .valueError := by
    intro h
    simp only [Lin.ofDirection, Vec2.copy_fl, bind, Except.bind, h]
  refine ⟨?_, fun h => herr (hd.2.1 ?_), fun h => ?_⟩
  · rcases setDirection_cases eps ⟨b - a, b - a⟩ (b - a) hfin he he1 with ⟨h1, -⟩ | ⟨-, -, -, n, hn, h⟩
    · exact .inl (herr h1)
    · refine .inr ⟨⟨n, ⟨n.y, -n.x⟩⟩, ?_, ?_, rfl⟩
      · simp only [Lin.ofDirection, Vec2.copy_fl, bind, Except.bind, h, pure, Except.pure]
      · exact near_diff dx dy hpos hn
  · rw [e8]
    rw [e16] at h
    have h1 : (1 + uR) * vlen (fromTo a b) ≤ (1 + uR) * (eps.real * (1 - 16 * uR)) :=
      mul_le_mul_of_nonneg_left h (by linarith)
    have h2 : 0 ≤ eps.real * uR := mul_nonneg ep.le hu.le
    have h3 : 0 ≤ eps.real * uR * uR := mul_nonneg h2 hu.le
    nlinarith
  · rw [e16] at h
    have h1 : (1 - uR) * (eps.real * (1 + 16 * uR)) ≤ (1 - uR) * vlen (fromTo a b) :=
      mul_le_mul_of_nonneg_left h (by linarith)
    have h2 : 0 ≤ eps.real * uR := mul_nonneg ep.le hu.le
    have h3 : eps.real * uR * uR ≤ eps.real * uR * (1 / 1000) := mul_le_mul_of_nonneg_left hu' h2
    obtain ⟨s', hs, -⟩ := hd.2.2.1 (by rw [e8]; nlinarith) (by
      refine l2.trans ?_
      have h4 : vlen (fromTo a b) ≤ 2 ^ 503 := by
        refine Real.sqrt_le_iff.mpr ⟨by positivity, ?_⟩
        have q1 := mul_self_le_mul_self (abs_nonneg _) bx
        have q2 := mul_self_le_mul_self (abs_nonneg _) by'
        rw [abs_mul_abs_self] at q1 q2
        have e : ((2 : ℝ) ^ 503) ^ 2 = 16 * (2 ^ 501 * 2 ^ 501) := by
          rw [pow_add (2 : ℝ) 501 2]; ring
        rw [e]
        have key : ∀ p q W : ℝ, p ≤ W → q ≤ W → 0 ≤ W → p + q ≤ 16 * W := fun p q W h1 h2 h3 => by linarith
        exact key _ _ _ q1 q2 (by positivity)
      have h5 : (1 + uR) * vlen (fromTo a b) ≤ 2 * 2 ^ 503 :=
        mul_le_mul (by linarith) h4 hpos.le (by norm_num)
      refine h5.trans ?_
      rw [← pow_succ']
      exact pow_le_real (by norm_num))
    simp only [Lin.ofDirection, Vec2.copy_fl, bind, Except.bind, hs, pure, Except.pure]
    simp

/-- **C78** `Line.from_points`, in double precision: `a` is the first point, `b` the first one that differs from it. ValueError
or a line that is the line through `a` and `b` up to rounding; ValueError if `b` is closer to `a` than EPSILON or if one of the
other points is further from the line than EPSILON (by more than the rounding error), and otherwise never (likewise). -/
theorem C78_line_from_points (eps : Double) (he : 1 / 2 ^ 500 ≤ eps.real) (he1 : eps.real ≤ 1 / 2) (k : Nat)
    (a b : Vec2 Double) (r : List (Vec2 Double)) (hab : a ≠ b) (M : ℝ) (hM : M ≤ 2 ^ 500) (ha : Within M a) (hb : Within M b)
    (hr : ∀ p ∈ r, Within M p) (ps : List (Vec2 Double)) (hps : ps = List.replicate (k + 1) a ++ b :: r) :
    (Line.fromPoints eps ps = .error .valueError ∨ ∃ l, Line.fromPoints eps ps = .ok l ∧
      CloseDir (fromTo a b) (toReal l.direction) ∧ l.normal = ⟨l.direction.y, -l.direction.x⟩ ∧
      ∀ p, Within M p →
        |(l.distanceTo p).real - signedDist (toReal a) (fromTo a b) (toReal p)| ≤ M / 2 ^ 46 + 1 / 2 ^ 490) ∧
    (vlen (fromTo a b) ≤ eps.real * (1 - 1 / 2 ^ 49) → Line.fromPoints eps ps = .error .valueError) ∧
    ((∃ p ∈ r, eps.real + (M / 2 ^ 46 + 1 / 2 ^ 490) ≤ |signedDist (toReal a) (fromTo a b) (toReal p)|) →
      Line.fromPoints eps ps = .error .valueError) ∧
    (eps.real * (1 + 1 / 2 ^ 49) ≤ vlen (fromTo a b) →
      (∀ p ∈ r, |signedDist (toReal a) (fromTo a b) (toReal p)| < eps.real - (M / 2 ^ 46 + 1 / 2 ^ 490)) →
      ∃ l, Line.fromPoints eps ps = .ok l) := by
  have hpos := fromTo_pos hab
  have M0 : 0 ≤ M := (abs_nonneg _).trans ha.1
  obtain ⟨h1, h2, h3⟩ := ofDiff he he1 hab hM ha hb
  have hf := hps ▸ firstTwoDistinct_double k a b r hab
  have herr : Lin.ofDirection eps (b - a) = .error .valueError → Line.fromPoints eps ps = .error .valueError := by
    intro h
    simp only [Line.fromPoints, hf, bind, Except.bind, h]
  rcases h1 with h1 | ⟨l, h1, hn, hnn⟩
  · exact ⟨.inl (herr h1), fun _ => herr h1, fun _ => herr h1, fun h => absurd h1 (h3 h)⟩
  · let L : Line Double := { l with offset := a.dot l.normal }
    have hunit : (fromTo a b).x / vlen (fromTo a b) * ((fromTo a b).x / vlen (fromTo a b)) +
        (fromTo a b).y / vlen (fromTo a b) * ((fromTo a b).y / vlen (fromTo a b)) = 1 := norm_unit hpos
    have hdist : ∀ p, Within M p →
        |(L.distanceTo p).real - signedDist (toReal a) (fromTo a b) (toReal p)| ≤ M / 2 ^ 46 + 1 / 2 ^ 490 := by
      intro p hp
      have key := line_dist (l := L) hunit hn hnn rfl ha hp hM
      have e : (p.x.real - a.x.real) * ((fromTo a b).y / vlen (fromTo a b)) -
          (p.y.real - a.y.real) * ((fromTo a b).x / vlen (fromTo a b)) = signedDist (toReal a) (fromTo a b) (toReal p) := by
        rw [signedDist]
        simp only [toReal]
        ring
      rw [e] at key
      exact key.trans (add_le_add (slackM M0 (by norm_num)) slackη)
    have hval : Line.fromPoints eps ps = if r.all (fun p => L.containsPoint eps p) then .ok L else .error .valueError := by
      simp only [Line.fromPoints, hf, bind, Except.bind, h1, pure, Except.pure, L]
    have hcp : ∀ p, L.containsPoint eps p = decide (|(L.distanceTo p).real| < eps.real) := by
      intro p
      rw [Line.containsPoint, ← pyabs_real]
      exact decide_eq_decide.mpr real_lt.symm
    generalize M / 2 ^ 46 + 1 / 2 ^ 490 = g at *
    rw [hval]
    refine ⟨?_, fun h => ?_, fun h => ?_, fun _ h => ?_⟩
    · split_ifs
      · exact .inr ⟨L, rfl, close_of hpos hn, hnn, hdist⟩
      · exact .inl rfl
    · rw [h2 h] at h1; cases h1
    · obtain ⟨p, hp, hd⟩ := h
      rw [if_neg]
      intro hall
      have h5 := List.all_eq_true.mp hall p hp
      rw [hcp, decide_eq_true_eq] at h5
      have h6 := hdist p (hr p hp)
      have h7 := abs_sub_abs_le_abs_sub (signedDist (toReal a) (fromTo a b) (toReal p)) (L.distanceTo p).real
      rw [abs_sub_comm] at h6
      clear hM
      linarith
    · rw [if_pos]
      · exact ⟨L, rfl⟩
      · refine List.all_eq_true.mpr fun p hp => ?_
        rw [hcp, decide_eq_true_eq]
        have h6 := hdist p (hr p hp)
        have h7 := abs_sub_abs_le_abs_sub (L.distanceTo p).real (signedDist (toReal a) (fromTo a b) (toReal p))
        have h8 := h p hp
        clear hM
        linarith

/-- **C78** `Ray.from_points`, in double precision: the ray from the first point through the first one that differs. -/
theorem C78_ray_from_points (eps : Double) (he : 1 / 2 ^ 500 ≤ eps.real) (he1 : eps.real ≤ 1 / 2) (k : Nat)
    (a b : Vec2 Double) (r : List (Vec2 Double)) (hab : a ≠ b) (M : ℝ) (hM : M ≤ 2 ^ 500) (ha : Within M a) (hb : Within M b)
    (hr : ∀ p ∈ r, Within M p) (ps : List (Vec2 Double)) (hps : ps = List.replicate (k + 1) a ++ b :: r)
    (dist : Vec2 Double → ℝ) (hdist : ∀ p, IsDist (OnRay (toReal a) (fromTo a b)) (toReal p) (dist p) gap) :
    (Ray.fromPoints eps ps = .error .valueError ∨ ∃ l, Ray.fromPoints eps ps = .ok l ∧ l.anchor = a ∧
      CloseDir (fromTo a b) (toReal l.direction) ∧ l.normal = ⟨l.direction.y, -l.direction.x⟩ ∧
      ∀ p, Within M p → |(l.distanceTo p).real - dist p| ≤ M / 2 ^ 46 + 1 / 2 ^ 490) ∧
    (vlen (fromTo a b) ≤ eps.real * (1 - 1 / 2 ^ 49) → Ray.fromPoints eps ps = .error .valueError) ∧
    ((∃ p ∈ r, eps.real + (M / 2 ^ 46 + 1 / 2 ^ 490) ≤ dist p) → Ray.fromPoints eps ps = .error .valueError) ∧
    (eps.real * (1 + 1 / 2 ^ 49) ≤ vlen (fromTo a b) → (∀ p ∈ r, dist p < eps.real - (M / 2 ^ 46 + 1 / 2 ^ 490)) →
      ∃ l, Ray.fromPoints eps ps = .ok l) := by
  have hpos := fromTo_pos hab
  have M0 : 0 ≤ M := (abs_nonneg _).trans ha.1
  obtain ⟨h1, h2, h3⟩ := ofDiff he he1 hab hM ha hb
  have hf := hps ▸ firstTwoDistinct_double k a b r hab
  have herr : Lin.ofDirection eps (b - a) = .error .valueError → Ray.fromPoints eps ps = .error .valueError := by
    intro h
    simp only [Ray.fromPoints, hf, bind, Except.bind, h]
  rcases h1 with h1 | ⟨l, h1, hn, hnn⟩
  · exact ⟨.inl (herr h1), fun _ => herr h1, fun _ => herr h1, fun h => absurd h1 (h3 h)⟩
  · let L : Ray Double := { l with anchor := a }
    have hunit : (fromTo a b).x / vlen (fromTo a b) * ((fromTo a b).x / vlen (fromTo a b)) +
        (fromTo a b).y / vlen (fromTo a b) * ((fromTo a b).y / vlen (fromTo a b)) = 1 := norm_unit hpos
    have hd : ∀ p, Within M p → |(L.distanceTo p).real - dist p| ≤ M / 2 ^ 46 + 1 / 2 ^ 490 := by
      intro p hp
      have hdd := dist_ray hpos (hdist p)
      refine (ray_dist (l := L) hunit hn hnn ha hp hM hdd.1 hdd.2).trans ?_
      have s1 := slackM M0 (k := 72) (by norm_num)
      have s2 := slackθ
      have := θR_pos
      exact add_le_add s1 (by linarith)
    have hval : Ray.fromPoints eps ps = if r.all (fun p => L.containsPoint eps p) then .ok L else .error .valueError := by
      simp only [Ray.fromPoints, hf, bind, Except.bind, h1, pure, Except.pure, L, Vec2.copy_fl]
    have hcp : ∀ p, L.containsPoint eps p = decide ((L.distanceTo p).real < eps.real) := by
      intro p
      rw [Ray.containsPoint]
      exact decide_eq_decide.mpr real_lt.symm
    generalize M / 2 ^ 46 + 1 / 2 ^ 490 = g at *
    rw [hval]
    refine ⟨?_, fun h => ?_, fun h => ?_, fun _ h => ?_⟩
    · split_ifs
      · exact .inr ⟨L, rfl, rfl, close_of hpos hn, hnn, hd⟩
      · exact .inl rfl
    · rw [h2 h] at h1; cases h1
    · obtain ⟨p, hp, hd'⟩ := h
      rw [if_neg]
      intro hall
      have h5 := List.all_eq_true.mp hall p hp
      rw [hcp, decide_eq_true_eq] at h5
      have h6 := (abs_le.mp (hd p (hr p hp))).1
      clear hM
      linarith
    · rw [if_pos]
      · exact ⟨L, rfl⟩
      · refine List.all_eq_true.mpr fun p hp => ?_
        rw [hcp, decide_eq_true_eq]
        have h6 := (abs_le.mp (hd p (hr p hp))).2
        have h8 := h p hp
        clear hM
        linarith

/-- **C78** no two different points: ValueError, in double precision as well. -/
theorem C78_from_points_same (eps : Double) (k : Nat) (a : Vec2 Double) :
    Line.fromPoints eps (List.replicate k a) = .error .valueError ∧
    Ray.fromPoints eps (List.replicate k a) = .error .valueError := by
  constructor
  · simp only [Line.fromPoints, firstTwoDistinct_same, bind, Except.bind]
  · simp only [Ray.fromPoints, firstTwoDistinct_same, bind, Except.bind]

/-! Segments -/

theorem setDirection_indep (eps : Double) (s s' : Lin Double) (v : Vec2 Double) :
    (s.setDirection eps v).1 = (s'.setDirection eps v).1 ∧
    (∀ u, (s.setDirection eps v).1 = .ok u → (s.setDirection eps v).2 = (s'.setDirection eps v).2) := by
  simp only [Lin.setDirection]
  cases v.copy.normalized eps with
  | error e => exact ⟨rfl, fun u h => by cases h⟩
  | ok n =>
    by_cases hn : n.isNull eps = true
    · simp only [hn, if_true]; exact ⟨trivial, fun u h => by cases h⟩
    · rw [Bool.not_eq_true] at hn
      simp only [hn, Bool.false_eq_true, if_false]; exact ⟨trivial, fun _ _ => trivial⟩

theorem sqrt_zero : PyMath.sqrt (0 : Double) = 0 := by
  have h := SqrtOk.finite (0 : Double) le_rfl (finite_of (M := 2 ^ 1) (pow_lt_real (by norm_num)) (by rw [real_zero]; norm_num))
  rw [real_zero, Real.sqrt_zero, mul_zero, sub_zero] at h
  exact real_injective (by rw [real_zero]; exact abs_eq_zero.mp (le_antisymm h (abs_nonneg _)))

theorem diff_self (a : Vec2 Double) : (a - a).length2 = 0 ∧ (a - a).length = 0 := by
  have e : ∀ z : Double, z - z = 0 := fun z => Fl.ext (by
    show double.rnd (z.val - z.val) = 0
    rw [sub_self, double.zero])
  have h : a - a = ⟨0, 0⟩ := Vec2.ext (e a.x) (e a.y)
  have h2 : (a - a).length2 = 0 := by
    rw [h]
    apply real_injective
    have : ((⟨0, 0⟩ : Vec2 Double).length2).val = 0 := by decide +kernel
    show (((⟨0, 0⟩ : Vec2 Double).length2).val : ℝ) = _
    rw [this, real_zero]; simp
  exact ⟨h2, by rw [Vec2.length, h2, sqrt_zero]⟩

/-- `from_points` builds the segment from the first point to the furthest one and checks the rest. -/
theorem fromPoints_double {eps : Double} (he : 1 / 2 ^ 500 ≤ eps.real) (he1 : eps.real ≤ 1 / 2) (p : Vec2 Double)
    (ps : List (Vec2 Double)) :
    LineSegment.fromPoints eps (p :: ps) =
      match LineSegment.new eps p (LineSegment.furthestLoop p ps 0 p - p) with
      | .ok s => if ps.all (fun q => s.containsPoint eps q) then .ok s else .error .valueError
      | .error e => .error e := by
  simp only [LineSegment.fromPoints, Vec2.copy_fl, LineSegment.new]
  have hc : ps.map Vec2.copy = ps := by
    rw [show (Vec2.copy : Vec2 Double → Vec2 Double) = id from funext Vec2.copy_fl, List.map_id]
  rw [hc]
  generalize LineSegment.furthestLoop p ps 0 p = e
  by_cases hep : e = p
  · subst hep
    have hb : (e != e) = false := by simp
    have hb2 : ((e - e).length != 0) = false := by rw [(diff_self e).2]; simp
    simp only [hb, LineSegment.setVector, Vec2.copy_fl, hb2, Bool.false_eq_true, if_false]
    obtain ⟨i1, i2⟩ := setDirection_indep eps ⟨e, e⟩ ⟨e - e, e - e⟩ ⟨1, 0⟩
    rcases h1 : Lin.setDirection eps ⟨e, e⟩ ⟨1, 0⟩ with ⟨r, s⟩
    rcases h2 : Lin.setDirection eps ⟨e - e, e - e⟩ ⟨1, 0⟩ with ⟨r', s'⟩
    rw [h1, h2] at i1 i2
    cases i1
    cases r with
    | error x => rfl
    | ok u =>
      cases i2 u rfl
      simp only [(diff_self e).2]
  · have hb : (e != p) = true := by simp [hep]
    simp only [hb, LineSegment.setVector, Vec2.copy_fl, if_true]
    have one : ∀ v : Vec2 Double, ∃ r t t', Lin.setDirection eps ⟨p, p⟩ v = (r, t) ∧
        Lin.setDirection eps ⟨e - p, e - p⟩ v = (r, t') ∧ (∀ u, r = .ok u → t = t') := by
      intro v
      obtain ⟨i1, i2⟩ := setDirection_indep eps ⟨p, p⟩ ⟨e - p, e - p⟩ v
      exact ⟨(Lin.setDirection eps ⟨p, p⟩ v).1, (Lin.setDirection eps ⟨p, p⟩ v).2,
        (Lin.setDirection eps ⟨e - p, e - p⟩ v).2, rfl, Prod.ext i1.symm rfl, i2⟩
    by_cases h0 : ((e - p).length != 0) = true
    · obtain ⟨r, t, t', h1, h2, h3⟩ := one (e - p)
      simp only [h0, if_true, h1, h2]
      cases r with
      | error x => rfl
      | ok u => cases h3 u rfl; rfl
    · rw [Bool.not_eq_true] at h0
      obtain ⟨r, t, t', h1, h2, h3⟩ := one ⟨1, 0⟩
      simp only [h0, Bool.false_eq_true, if_false, h1, h2]
      cases r with
      | error x => rfl
      | ok u => cases h3 u rfl; rfl

theorem furthest_double (start : Vec2 Double) : ∀ (ps : List (Vec2 Double)) (d : Double) (e : Vec2 Double),
    d = (e - start).length2 → (LineSegment.furthestLoop start ps d e ∈ e :: ps) ∧
    ∀ q ∈ e :: ps, (q - start).length2 ≤ (LineSegment.furthestLoop start ps d e - start).length2
  | [], d, e, h => by
    simp only [LineSegment.furthestLoop, List.mem_singleton, true_and]
    rintro q rfl
    exact le_rfl
  | p :: ps, d, e, h => by
    simp only [LineSegment.furthestLoop, Vec2.copy_fl]
    split
    · rename_i hc
      obtain ⟨i1, i2⟩ := furthest_double start ps _ p rfl
      refine ⟨List.mem_cons_of_mem _ i1, ?_⟩
      intro q hq
      rcases List.mem_cons.mp hq with rfl | hq
      · rw [h] at hc
        exact (le_of_lt hc).trans (i2 p List.mem_cons_self)
      · exact i2 q hq
    · rename_i hc
      obtain ⟨i1, i2⟩ := furthest_double start ps d e h
      refine ⟨?_, ?_⟩
      · rcases List.mem_cons.mp i1 with h' | h'
        · rw [h']; exact List.mem_cons_self
        · exact List.mem_cons_of_mem _ (List.mem_cons_of_mem _ h')
      · intro q hq
        rcases List.mem_cons.mp hq with rfl | hq
        · exact i2 _ List.mem_cons_self
        · rcases List.mem_cons.mp hq with rfl | hq
          · rw [h] at hc
            exact (not_lt.mp hc).trans (i2 e List.mem_cons_self)
          · exact i2 q (List.mem_cons_of_mem _ hq)

/-- The square root of the computed square of a length. -/
theorem root_length2 (t : Vec2 Double) (hx : |t.x.real| ≤ 2 ^ 510) (hy : |t.y.real| ≤ 2 ^ 510) :
    |√t.length2.real - vlen (toReal t)| ≤ 31 / 10 * uR * vlen (toReal t) + 2 * θR := by
  obtain ⟨a, b, ha, hb, ht, ht0, -⟩ := length2_parts t hx hy
  exact len_abs uR_pos uR_small ηR_pos ha hb ht ht0 (by
    rw [sub_self, abs_zero]
    exact mul_nonneg (mul_nonneg (by norm_num) uR_pos.le) (Real.sqrt_nonneg _)) θR_pos.le θR_sq

/-- The point that is furthest by the computed squares is furthest up to rounding. -/
theorem furthest_near {a e q : Vec2 Double} {M : ℝ} (hM : M ≤ 2 ^ 498) (ha : Within M a) (he : Within M e) (hq : Within M q)
    (h : (q - a).length2 ≤ (e - a).length2) :
    vlen (fromTo a q) ≤ (1 + 1 / 2 ^ 49) * vlen (fromTo a e) + 1 / 2 ^ 490 := by
  have hM' : M ≤ 2 ^ 500 := hM.trans (pow_le_real (by norm_num))
  have hu := uR_pos
  have hu' := uR_small
  have e16 : 1 / (2 : ℝ) ^ 49 = 16 * uR := by norm_num [uR]
  have part : ∀ r : Vec2 Double, Within M r → (1 - uR) * vlen (fromTo a r) ≤ vlen (toReal (r - a)) ∧
      vlen (toReal (r - a)) ≤ (1 + uR) * vlen (fromTo a r) ∧
      |√(r - a).length2.real - vlen (toReal (r - a))| ≤ 31 / 10 * uR * vlen (toReal (r - a)) + 2 * θR := by
    intro r hr
    obtain ⟨dx, dy, bx, by'⟩ := diff_parts hM' ha hr
    obtain ⟨l1, l2⟩ := diff_len dx dy
    have one : ∀ z z' : ℝ, |z' - z| ≤ uR * |z| → |z| ≤ 2 ^ 501 → |z'| ≤ 2 ^ 510 := by
      intro z z' h h2
      have h1 := abs_sub_abs_le_abs_sub z' z
      have h3 : uR * |z| ≤ 1 * |z| := mul_le_mul_of_nonneg_right (by linarith) (abs_nonneg z)
      have h4 : (2 : ℝ) ^ 502 ≤ 2 ^ 510 := pow_le_real (by norm_num)
      refine le_trans ?_ h4
      rw [pow_succ (2 : ℝ) 501]
      clear hM hM' h4
      generalize (2 : ℝ) ^ 501 = W at *
      linarith
    exact ⟨l1, l2, root_length2 _ (one _ _ dx bx) (one _ _ dy by')⟩
  obtain ⟨q1, q2, q3⟩ := part q hq
  obtain ⟨e1, e2, e3⟩ := part e he
  have hs : √(q - a).length2.real ≤ √(e - a).length2.real := Real.sqrt_le_sqrt (real_le.mpr h)
  have s2 := slackθ
  have hθ := θR_pos
  rw [e16]
  have nq : 0 ≤ vlen (fromTo a q) := Real.sqrt_nonneg _
  have ne : 0 ≤ vlen (fromTo a e) := Real.sqrt_nonneg _
  have nq' : 0 ≤ vlen (toReal (q - a)) := Real.sqrt_nonneg _
  have ne' : 0 ≤ vlen (toReal (e - a)) := Real.sqrt_nonneg _
  have a1 := (abs_le.mp q3).1
  have a2 := (abs_le.mp e3).2
  clear q3 e3 hM hM'
  generalize vlen (fromTo a q) = Q at *
  generalize vlen (fromTo a e) = E at *
  generalize vlen (toReal (q - a)) = Q' at *
  generalize vlen (toReal (e - a)) = E' at *
  generalize 1 / (2 : ℝ) ^ 490 = g at *
  generalize √(q - a).length2.real = x at *
  generalize √(e - a).length2.real = y at *
  have b1 : (1 - 31 / 10 * uR) * Q' ≤ (1 + 31 / 10 * uR) * E' + 4 * θR := by linarith
  have b2 : (1 - 31 / 10 * uR) * ((1 - uR) * Q) ≤ (1 - 31 / 10 * uR) * Q' := mul_le_mul_of_nonneg_left q1 (by linarith)
  have b3 : (1 + 31 / 10 * uR) * E' ≤ (1 + 31 / 10 * uR) * ((1 + uR) * E) := mul_le_mul_of_nonneg_left e2 (by linarith)
  have b4 : (1 - 42 / 10 * uR) * Q ≤ (1 + 42 / 10 * uR) * E + 4 * θR := by
    have c1 : 0 ≤ uR * uR * Q := by positivity
    have c2 : uR * uR * E ≤ 1 / 1000 * uR * E :=
      mul_le_mul_of_nonneg_right (mul_le_mul_of_nonneg_right hu' hu.le) ne
    nlinarith [mul_nonneg hu.le ne]
  have b5 : (1 - 42 / 10 * uR) * Q ≤ (1 - 42 / 10 * uR) * ((1 + 16 * uR) * E + g) := by
    have c2 : uR * (uR * E) ≤ 1 / 1000 * (uR * E) := mul_le_mul_of_nonneg_right hu' (mul_nonneg hu.le ne)
    have c3 : uR * g ≤ 1 / 1000 * g := mul_le_mul_of_nonneg_right hu' (by linarith)
    nlinarith [mul_nonneg hu.le ne]
  exact le_of_mul_le_mul_left b5 (by linarith)

/-- **C78** `LineSegment.from_points`, in double precision. `e` is the point furthest from the first point `a`, up to rounding;
the result is ValueError or the segment from `a` to `e` up to rounding: ValueError if one of the points is further than EPSILON
from it or if `e` is closer to `a` than EPSILON (unless it is so close that its distance is computed as zero), and otherwise
never. -/
theorem C78_segment_from_points (eps : Double) (he : 1 / 2 ^ 500 ≤ eps.real) (he1 : eps.real ≤ 1 / 2)
    (a : Vec2 Double) (ps : List (Vec2 Double)) (M : ℝ) (hM : M ≤ 2 ^ 498) (ha : Within M a) (hps : ∀ p ∈ ps, Within M p) :
    ∃ e ∈ a :: ps, (∀ q ∈ ps, gap (toReal a) (toReal q) ≤ (1 + 1 / 2 ^ 49) * gap (toReal a) (toReal e) + 1 / 2 ^ 490) ∧
      ∀ dist : Vec2 Double → ℝ, (∀ p, IsDist (OnSeg (toReal a) (toReal e)) (toReal p) (dist p) gap) →
      (LineSegment.fromPoints eps (a :: ps) = .error .valueError ∨
        ∃ l, LineSegment.fromPoints eps (a :: ps) = .ok l ∧ l.anchor = a ∧
          ∀ p, Within M p → |(l.distanceTo p).real - dist p| ≤ M / 2 ^ 44 + 1 / 2 ^ 490) ∧
      (1 / 2 ^ 490 ≤ gap (toReal a) (toReal e) → gap (toReal a) (toReal e) ≤ eps.real * (1 - 1 / 2 ^ 49) →
        LineSegment.fromPoints eps (a :: ps) = .error .valueError) ∧
      ((∃ p ∈ ps, eps.real + (M / 2 ^ 44 + 1 / 2 ^ 490) ≤ dist p) →
        LineSegment.fromPoints eps (a :: ps) = .error .valueError) ∧
      (e = a ∨ eps.real * (1 + 1 / 2 ^ 49) ≤ gap (toReal a) (toReal e) →
        (∀ p ∈ ps, dist p < eps.real - (M / 2 ^ 44 + 1 / 2 ^ 490)) →
        ∃ l, LineSegment.fromPoints eps (a :: ps) = .ok l) := by
  have ep := (eps_small he).1
  have hu := uR_pos
  have hu' := uR_small
  have M0 : 0 ≤ M := (abs_nonneg _).trans ha.1
  have hM' : M ≤ 2 ^ 500 := hM.trans (pow_le_real (by norm_num))
  have hM3 : 3 * M ≤ 2 ^ 500 := by
    have e : (2 : ℝ) ^ 500 = 4 * 2 ^ 498 := by rw [pow_add (2 : ℝ) 498 2]; ring
    rw [e]
    exact mul_le_mul (by norm_num) hM M0 (by norm_num)
  obtain ⟨f1, f2⟩ := furthest_double a ps 0 a (diff_self a).1.symm
  have hfp := fromPoints_double he he1 a ps
  generalize LineSegment.furthestLoop a ps 0 a = e at *
  have hew : Within M e := by
    rcases List.mem_cons.mp f1 with h | h
    · rw [h]; exact ha
    · exact hps e h
  have hgap : ∀ q : Vec2 Double, gap (toReal a) (toReal q) = vlen (fromTo a q) := fun q => gap_comm _ _
  refine ⟨e, f1, fun q hq => ?_, ?_⟩
  · rw [hgap, hgap]
    exact furthest_near hM ha hew (hps q hq) (f2 q (List.mem_cons_of_mem _ hq))
  intro dist hdist
  obtain ⟨dx, dy, -, -⟩ := diff_parts hM' ha hew
  obtain ⟨l1, l2⟩ := diff_len dx dy
  have e1 : √((fromTo a e).x * (fromTo a e).x + (fromTo a e).y * (fromTo a e).y) = vlen (fromTo a e) := rfl
  have e2 : √((e - a).x.real * (e - a).x.real + (e - a).y.real * (e - a).y.real) = vlen (toReal (e - a)) := rfl
  rw [e1, e2] at l1 l2
  have b2 : ∀ p q : ℝ, |p| ≤ M → |q| ≤ M → |p - q| ≤ 2 * M := by
    intro p q hp hq
    have := abs_sub p q
    clear hM hM' hM3 he
    linarith
  have bx := b2 _ _ hew.1 ha.1
  have by' := b2 _ _ hew.2 ha.2
  have hvw : Within (3 * M) (e - a) := by
    have one : ∀ z z' : ℝ, |z' - z| ≤ uR * |z| → |z| ≤ 2 * M → |z'| ≤ 3 * M := by
      intro z z' h h2
      have h1 := abs_sub_abs_le_abs_sub z' z
      have h3 : uR * |z| ≤ 1 / 1000 * (2 * M) := mul_le_mul hu' h2 (abs_nonneg z) (by norm_num)
      clear hM hM' hM3 he
      linarith
    exact ⟨one _ _ dx bx, one _ _ dy by'⟩
  have hfin : FiniteVec (e - a) := by
    have : (2 : ℝ) ^ 500 < 2 ^ 1024 := pow_lt_real (by norm_num)
    exact ⟨finite_of (hM3.trans_lt this) hvw.1, finite_of (hM3.trans_lt this) hvw.2⟩
  have wide : ∀ p, Within M p → Within (3 * M) p := fun p hp => ⟨hp.1.trans (by linarith), hp.2.trans (by linarith)⟩
  have hshift : gap ⟨(toReal a).x + (toReal (e - a)).x, (toReal a).y + (toReal (e - a)).y⟩ (toReal e) ≤ 4 * uR * M := by
    have f : ∀ z z' : ℝ, |z' - z| ≤ uR * |z| → |z| ≤ 2 * M → |z' - z| ≤ 2 * uR * M := by
      intro z z' h h2
      refine h.trans ((mul_le_mul_of_nonneg_left h2 hu.le).trans (le_of_eq (by ring)))
    have n := norm_within (f _ _ dx bx) (f _ _ dy by')
    have e3 : gap ⟨(toReal a).x + (toReal (e - a)).x, (toReal a).y + (toReal (e - a)).y⟩ (toReal e) =
        √(((e - a).x.real - (fromTo a e).x) * ((e - a).x.real - (fromTo a e).x) +
          ((e - a).y.real - (fromTo a e).y) * ((e - a).y.real - (fromTo a e).y)) := by
      rw [gap, vlen]
      congr 1
      simp only [toReal, fromTo]
      ring
    rw [e3]
    have : 0 ≤ uR * M := mul_nonneg hu.le M0
    refine n.trans ?_
    clear hM hM' hM3 he
    linarith
  have near : ∀ l, LineSegment.new eps a (e - a) = .ok l → ∀ p, Within M p →
      |(l.distanceTo p).real - dist p| ≤ M / 2 ^ 44 + 1 / 2 ^ 490 := by
    intro l hl p hp
    obtain ⟨d', hd'⟩ := exists_dist_seg (toReal a)
      ⟨(toReal a).x + (toReal (e - a)).x, (toReal a).y + (toReal (e - a)).y⟩ (toReal p)
    have k := (C78_segment eps he he1 a (e - a) p (3 * M) hM3 (wide a ha) hvw (wide p hp) l hl d' hd').1
    have s1 := seg_shift (hdist p) hd'
    have s2 := seg_shift hd' (hdist p)
    rw [gap_comm] at s2
    have e4 : M / 2 ^ 44 = 512 * uR * M := by unfold uR; ring
    have e5 : 3 * M / 2 ^ 46 = 384 * uR * M := by unfold uR; ring
    have : 0 ≤ uR * M := mul_nonneg hu.le M0
    rw [e4]
    rw [e5] at k
    generalize 1 / (2 : ℝ) ^ 490 = g at *
    clear hM hM' hM3 he
    obtain ⟨k1, k2⟩ := abs_le.mp k
    exact abs_le.mpr ⟨by linarith, by linarith⟩
  have anchor : ∀ l, LineSegment.new eps a (e - a) = .ok l → l.anchor = a := fun l hl => (new_segment he he1 hfin hl).1
  have hcp : ∀ (l : LineSegment Double) p, l.containsPoint eps p = decide ((l.distanceTo p).real < eps.real) := by
    intro l p
    rw [LineSegment.containsPoint]
    exact decide_eq_decide.mpr real_lt.symm
  have hcon := C78_constructors eps he he1 a (e - a) hfin
  have hno : ∀ x, LineSegment.new eps a (e - a) = .error x → x = .valueError := by
    intro x hx
    simp only [LineSegment.new, LineSegment.setVector, Vec2.copy_fl] at hx
    have both : ∀ w : Vec2 Double, FiniteVec w → ∀ y s', Lin.setDirection eps ⟨e - a, e - a⟩ w = (.error y, s') →
        y = .valueError := by
      intro w hw y s' h
      rcases (C78_direction eps he he1 ⟨e - a, e - a⟩ w hw).1 with h' | ⟨s'', h', -⟩
      · rw [h'] at h; cases h; rfl
      · rw [h'] at h; cases h
    have h1f : FiniteVec (⟨1, 0⟩ : Vec2 Double) := by
      constructor
      · exact finite_of (M := 2 ^ 1) (pow_lt_real (by norm_num)) (by rw [real_one]; norm_num)
      · exact finite_of (M := 2 ^ 1) (pow_lt_real (by norm_num)) (by rw [real_zero]; norm_num)
    by_cases h0 : ((e - a).length != 0) = true
    · simp only [h0, if_true] at hx
      rcases h : Lin.setDirection eps ⟨e - a, e - a⟩ (e - a) with ⟨r, t⟩
      rw [h] at hx
      cases r with
      | error y => cases hx; exact both _ hfin _ _ h
      | ok u => cases hx
    · rw [Bool.not_eq_true] at h0
      simp only [h0, Bool.false_eq_true, if_false] at hx
      rcases h : Lin.setDirection eps ⟨e - a, e - a⟩ ⟨1, 0⟩ with ⟨r, t⟩
      rw [h] at hx
      cases r with
      | error y => cases hx; exact both _ h1f _ _ h
      | ok u => cases hx
  have e8 : 1 / (2 : ℝ) ^ 50 = 8 * uR := by norm_num [uR]
  have e16 : 1 / (2 : ℝ) ^ 49 = 16 * uR := by norm_num [uR]
  have h2e : 0 ≤ eps.real * uR := mul_nonneg ep.le hu.le
  refine ⟨?_, fun h h' => ?_, fun h => ?_, fun h h' => ?_⟩
  · rw [hfp]
    rcases hl : LineSegment.new eps a (e - a) with x | l
    · exact .inl (by rw [hno x hl])
    · simp only
      split_ifs
      · exact .inr ⟨l, rfl, anchor l hl, near l hl⟩
      · exact .inl rfl
  · rw [hgap] at h h'
    have hshort : vlen (toReal (e - a)) ≤ eps.real * (1 - 1 / 2 ^ 50) := by
      rw [e8]
      rw [e16] at h'
      have h1 : (1 + uR) * vlen (fromTo a e) ≤ (1 + uR) * (eps.real * (1 - 16 * uR)) :=
        mul_le_mul_of_nonneg_left h' (by linarith)
      have h3 : 0 ≤ eps.real * uR * uR := mul_nonneg h2e hu.le
      clear hM hM' hM3 he
      nlinarith
    have hnz : (e - a).length ≠ 0 := by
      intro h0
      have h5 : (2 : ℝ) ^ 500 ≤ 2 ^ 510 := pow_le_real (by norm_num)
      have := length_double (e - a) (hvw.1.trans (hM3.trans h5)) (hvw.2.trans (hM3.trans h5))
      rw [h0, real_zero, e2] at this
      have h6 := (abs_le.mp this).1
      have s2 := slackθ
      have hθ := θR_pos
      have n1 : 0 ≤ vlen (fromTo a e) := Real.sqrt_nonneg _
      have n2 : 0 ≤ vlen (toReal (e - a)) := Real.sqrt_nonneg _
      have m1 := mul_le_mul_of_nonneg_right hu' n1
      have m2 := mul_le_mul_of_nonneg_right hu' n2
      clear hM hM' hM3 he h5 e8 e16
      generalize 1 / (2 : ℝ) ^ 490 = g at *
      linarith
    rw [hfp, (hcon.2.1 hshort).2.2.1 hnz]
  · obtain ⟨p, hp, hd⟩ := h
    rw [hfp]
    rcases hl : LineSegment.new eps a (e - a) with x | l
    · simp only [hno x hl]
    · simp only
      rw [if_neg]
      intro hall
      have h5 := List.all_eq_true.mp hall p hp
      rw [hcp, decide_eq_true_eq] at h5
      have h6 := (abs_le.mp (near l hl p (hps p hp))).1
      generalize M / 2 ^ 44 + 1 / 2 ^ 490 = g at *
      clear hM hM' hM3 he
      linarith
  · have hok : ∃ l, LineSegment.new eps a (e - a) = .ok l := by
      rcases h with h | h
      · subst h
        refine (hcon.2.1 ?_).2.2.2 (diff_self e).2
        have z : vlen (fromTo e e) = 0 := by simp [vlen, fromTo]
        rw [z, mul_zero] at l2
        rw [e8]
        exact l2.trans (mul_nonneg ep.le (by linarith))
      · rw [hgap, e16] at h
        have h1 : (1 - uR) * (eps.real * (1 + 16 * uR)) ≤ (1 - uR) * vlen (fromTo a e) :=
          mul_le_mul_of_nonneg_left h (by linarith)
        have h3 : eps.real * uR * uR ≤ eps.real * uR * (1 / 1000) := mul_le_mul_of_nonneg_left hu' h2e
        refine (hcon.1 (by rw [e8]; clear hM hM' hM3 he; nlinarith) ?_).2.2
        have n := norm_within hvw.1 hvw.2
        rw [e2] at n
        refine n.trans ?_
        have : 3 / 2 * (3 * M) ≤ 2 * 2 ^ 500 := mul_le_mul (by norm_num) hM3 (by linarith) (by norm_num)
        refine this.trans ?_
        rw [← pow_succ']
        exact pow_le_real (by norm_num)
    obtain ⟨l, hl⟩ := hok
    rw [hfp, hl]
    simp only
    rw [if_pos]
    · exact ⟨l, rfl⟩
    · refine List.all_eq_true.mpr fun p hp => ?_
      rw [hcp, decide_eq_true_eq]
      have h6 := (abs_le.mp (near l hl p (hps p hp))).2
      have h8 := h' p hp
      generalize M / 2 ^ 44 + 1 / 2 ^ 490 = g at *
      clear hM hM' hM3 he
      linarith

/-! Concrete cases: EPSILON as in the code, and vectors with small whole coordinates. -/

/-- The hypotheses on EPSILON and the vectors of the theorems above, for the code's EPSILON, the anchor (1, 2) and the vector
(3, 4); the constructors succeed, and (12, 4) is right of the line. -/
example : ∃ i : PyMath Double, ∃ _ : @SqrtOk i, (1 / 2 ^ 500 : ℝ) ≤ (dbl (1 / 100000)).real ∧ (dbl (1 / 100000)).real ≤ 1 / 2 ∧
    FiniteVec (dvec 3 4) ∧ Within 12 (dvec 1 2) ∧ Within 12 (dvec 12 4) ∧ vlen (toReal (dvec 3 4)) = 5 ∧
    ∃ l, Line.new (dbl (1 / 100000)) (dvec 1 2) (dvec 3 4) = .ok l ∧ l.pointRight (dbl (1 / 100000)) (dvec 12 4) = true := by
  obtain ⟨i, hi⟩ := sqrtOk_exists
  letI := i
  have e1 : ∀ n : ℤ, |n| ≤ 2 ^ 53 → (dbl n).real = n := by
    intro n hn
    have := double_float n 0 (by norm_num) (by norm_num) hn
    rw [zpow_zero, mul_one] at this
    show ((double.rnd n : ℚ) : ℝ) = n
    rw [this]; push_cast; rfl
  have n1 : (dbl 1).real = 1 := by simpa using e1 1 (by norm_num)
  have n2 : (dbl 2).real = 2 := by simpa using e1 2 (by norm_num)
  have n3 : (dbl 3).real = 3 := by simpa using e1 3 (by norm_num)
  have n4 : (dbl 4).real = 4 := by simpa using e1 4 (by norm_num)
  have n12 : (dbl 12).real = 12 := by simpa using e1 12 (by norm_num)
  have hq : (1 / 2 ^ 17 : ℚ) ≤ (dbl (1 / 100000)).val ∧ (dbl (1 / 100000)).val ≤ 1 / 2 ^ 16 := by decide +kernel
  have h1 : (1 / 2 ^ 17 : ℝ) ≤ (dbl (1 / 100000)).real := by
    have : ((1 / 2 ^ 17 : ℚ) : ℝ) ≤ ((dbl (1 / 100000)).val : ℝ) := Rat.cast_le.mpr hq.1
    push_cast at this; exact this
  have h2 : (dbl (1 / 100000)).real ≤ 1 / 2 ^ 16 := by
    have : ((dbl (1 / 100000)).val : ℝ) ≤ ((1 / 2 ^ 16 : ℚ) : ℝ) := Rat.cast_le.mpr hq.2
    push_cast at this; exact this
  have he : (1 / 2 ^ 500 : ℝ) ≤ (dbl (1 / 100000)).real := (inv_pow_le (by norm_num)).trans h1
  have he1 : (dbl (1 / 100000)).real ≤ 1 / 2 := h2.trans (by norm_num)
  have hf : FiniteVec (dvec 3 4) := by
    constructor
    · exact finite_of (M := 2 ^ 3) (pow_lt_real (by norm_num)) (by show |(dbl 3).real| ≤ _; rw [n3]; norm_num)
    · exact finite_of (M := 2 ^ 3) (pow_lt_real (by norm_num)) (by show |(dbl 4).real| ≤ _; rw [n4]; norm_num)
  have w1 : Within 12 (dvec 1 2) := by
    constructor
    · show |(dbl 1).real| ≤ _; rw [n1]; norm_num
    · show |(dbl 2).real| ≤ _; rw [n2]; norm_num
  have w2 : Within 12 (dvec 12 4) := by
    constructor
    · show |(dbl 12).real| ≤ _; rw [n12]; norm_num
    · show |(dbl 4).real| ≤ _; rw [n4]; norm_num
  have hv : vlen (toReal (dvec 3 4)) = 5 := by
    show √((dbl 3).real * (dbl 3).real + (dbl 4).real * (dbl 4).real) = 5
    rw [n3, n4, show (3 : ℝ) * 3 + 4 * 4 = 5 * 5 by norm_num, Real.sqrt_mul_self (by norm_num)]
  obtain ⟨l, hl⟩ := ((C78_constructors (dbl (1 / 100000)) he he1 (dvec 1 2) (dvec 3 4) hf).1
    (by
      rw [hv]
      have : (dbl (1 / 100000)).real * (1 + 1 / 2 ^ 50) ≤ 1 / 2 * 2 := mul_le_mul he1 (by norm_num) (by norm_num) (by norm_num)
      linarith)
    (by rw [hv]; exact le_trans (by norm_num) (pow_le_real (show 3 ≤ 510 by norm_num)))).1
  refine ⟨i, hi, he, he1, hf, w1, w2, hv, l, hl, ?_⟩
  refine ((C78_line_sides (dbl (1 / 100000)) he he1 (dvec 1 2) (dvec 3 4) (dvec 12 4) hf 12
    (le_trans (by norm_num) (pow_le_real (show 4 ≤ 500 by norm_num))) w1 w2 l hl).1 ?_).1
  have e : signedDist (toReal (dvec 1 2)) (toReal (dvec 3 4)) (toReal (dvec 12 4)) = 38 / 5 := by
    rw [signedDist, hv]
    show (((dbl 12).real - (dbl 1).real) * (dbl 4).real - ((dbl 4).real - (dbl 2).real) * (dbl 3).real) / 5 = _
    rw [n12, n1, n4, n2, n3]
    norm_num
  rw [e]
  have : (1 : ℝ) / 2 ^ 490 ≤ 1 / 2 ^ 1 := inv_pow_le (by norm_num)
  clear he
  generalize (1 : ℝ) / 2 ^ 490 = g at *
  norm_num at *
  linarith

/-- Points for `from_points`: the first point twice, another one and a third one; `1e200` is too long for a direction. -/
example : (dvec 1 2 : Vec2 Double) ≠ dvec 4 6 ∧
    [dvec 1 2, dvec 1 2, dvec 4 6, dvec 7 10] = List.replicate (1 + 1) (dvec 1 2) ++ dvec 4 6 :: [dvec 7 10] ∧
    (2 : ℚ) ^ 513 ≤ (dbl (10 ^ 200)).val ∧ (dbl (10 ^ 200)).Finite := by
  refine ⟨?_, rfl, ?_, ?_⟩
  · intro h
    have := congrArg (fun v : Vec2 Double => v.x.val) h
    revert this
    decide +kernel
  · decide +kernel
  · show |(dbl (10 ^ 200)).val| < 2 ^ 1024
    decide +kernel

end Planar
