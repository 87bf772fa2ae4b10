import Verif.Lemmas.FloatAffine
import Verif.Lemmas.GridMore
import Verif.Props.Box
import Verif.Props.FloatGrid
import Verif.Props.FloatAffine
/- Property C83: bounding boxes in floating point. -/
set_option linter.unusedSectionVars false
namespace Planar
open Spec

section Any
variable {F : Type} [Field F] [LinearOrder F] [IsStrictOrderedRing F] {R : Rounding F}

theorem fl_half_nonneg {d : Fl R} (h : 0 ≤ d) : 0 ≤ d / (1 + 1) := by
  rw [Fl.le_iff, Fl.zero_val] at h
  rw [Fl.le_iff, Fl.zero_val, Fl.div_val, ← R.zero]
  refine R.mono _ _ (div_nonneg h ?_)
  rw [Fl.add_val, Fl.one_val, ← R.zero]
  exact R.mono _ _ (by norm_num)

theorem fl_sub_le {a d : Fl R} (h : 0 ≤ d) : a - d ≤ a := by
  rw [Fl.le_iff, Fl.zero_val] at h
  rw [Fl.le_iff, Fl.sub_val]
  calc R.rnd (a.val - d.val) ≤ R.rnd a.val := R.mono _ _ (by linarith)
    _ = a.val := a.fixed

theorem fl_le_add {a d : Fl R} (h : 0 ≤ d) : a ≤ a + d := by
  rw [Fl.le_iff, Fl.zero_val] at h
  rw [Fl.le_iff, Fl.add_val]
  calc a.val = R.rnd a.val := a.fixed.symm
    _ ≤ _ := R.mono _ _ (by linarith)

theorem fl_le_sub {a d : Fl R} (h : d ≤ 0) : a ≤ a - d := by
  rw [Fl.le_iff, Fl.zero_val] at h
  rw [Fl.le_iff, Fl.sub_val]
  calc a.val = R.rnd a.val := a.fixed.symm
    _ ≤ _ := R.mono _ _ (by linarith)

theorem fl_add_le {a d : Fl R} (h : d ≤ 0) : a + d ≤ a := by
  rw [Fl.le_iff, Fl.zero_val] at h
  rw [Fl.le_iff, Fl.add_val]
  calc R.rnd (a.val + d.val) ≤ R.rnd a.val := R.mono _ _ (by linarith)
    _ = a.val := a.fixed

/-- The box of two points. -/
theorem fromPoints_two {K : Type} [LinearOrder K] [Add K] [Sub K] [Mul K] [Div K] [Neg K] [Zero K] [One K] [RoundedArith K]
    (p q : Vec2 K) : Box.fromPoints [p, q] = .ok ⟨⟨min p.x q.x, min p.y q.y⟩, ⟨max p.x q.x, max p.y q.y⟩⟩ := by
  rw [fromPoints_iff]
  refine ⟨?_, ?_, ?_, ?_, ?_⟩
  · intro v hv
    simp only [List.mem_cons, List.not_mem_nil, or_false] at hv
    rcases hv with rfl | rfl
    · exact ⟨min_le_left _ _, le_max_left _ _, min_le_left _ _, le_max_left _ _⟩
    · exact ⟨min_le_right _ _, le_max_right _ _, min_le_right _ _, le_max_right _ _⟩
  · rcases le_total p.x q.x with h | h
    · exact ⟨p, by simp, by simp [h]⟩
    · exact ⟨q, by simp, by simp [h]⟩
  · rcases le_total p.x q.x with h | h
    · exact ⟨q, by simp, by simp [h]⟩
    · exact ⟨p, by simp, by simp [h]⟩
  · rcases le_total p.y q.y with h | h
    · exact ⟨p, by simp, by simp [h]⟩
    · exact ⟨q, by simp, by simp [h]⟩
  · rcases le_total p.y q.y with h | h
    · exact ⟨q, by simp, by simp [h]⟩
    · exact ⟨p, by simp, by simp [h]⟩

/-- **C83** Whatever the rounding: `inflate` by amounts that are not negative gives a box that encloses the box,
`from_center` gives a box that encloses the centre (also for negative sizes). -/
theorem C83_encloses (b : Box (Fl R)) (d c : Vec2 (Fl R)) (w h : Fl R) :
    (0 ≤ d.x → 0 ≤ d.y → ∃ r, b.inflateV d = .ok r ∧ ∀ p, b.Encloses p → r.Encloses p) ∧
    (∃ r, Box.fromCenter c w h = .ok r ∧ r.Encloses c) := by
  constructor
  · intro hx hy
    unfold Box.inflateV
    simp only [Vec2.copy_fl, fromPoints_two]
    refine ⟨_, rfl, fun p hp => ?_⟩
    obtain ⟨h1, h2, h3, h4⟩ := hp
    have a := fl_half_nonneg hx
    have b := fl_half_nonneg hy
    exact ⟨(min_le_left _ _).trans ((fl_sub_le a).trans h1), (h2.trans (fl_le_add a)).trans (le_max_right _ _),
      (min_le_left _ _).trans ((fl_sub_le b).trans h3), (h4.trans (fl_le_add b)).trans (le_max_right _ _)⟩
  · unfold Box.fromCenter
    simp only [fromPoints_two]
    refine ⟨_, rfl, ?_⟩
    have key : ∀ c t : Fl R, min (c - t) (c + t) ≤ c ∧ c ≤ max (c - t) (c + t) := by
      intro c t
      rcases le_total 0 t with ht | ht
      · exact ⟨(min_le_left _ _).trans (fl_sub_le ht), (fl_le_add ht).trans (le_max_right _ _)⟩
      · exact ⟨(min_le_right _ _).trans (fl_add_le ht), (fl_le_sub ht).trans (le_max_left _ _)⟩
    exact ⟨(key _ _).1, (key _ _).2, (key _ _).1, (key _ _).2⟩

/-- **C83** Whatever the rounding: the computed images of all points of a box are in the computed image of the box, for a
transform that keeps the axes or exchanges them. -/
theorem C83_transform (eps : Fl R) (he : 0 < eps) (b : Box (Fl R)) (T : Affine (Fl R))
    (hT : (T.b = 0 ∧ T.d = 0) ∨ (T.a = 0 ∧ T.e = 0)) :
    ∃ r, b.mulT eps T = .ok (.box r) ∧ ∀ p, b.Encloses p → r.Encloses (T.apply p) := by
  have hp0 : pyabs (0 : Fl R) < eps := by
    unfold pyabs; rw [if_neg (lt_irrefl _)]; exact he
  have hr : T.isRectilinear eps = true := by
    unfold Affine.isRectilinear
    rcases hT with ⟨h1, h2⟩ | ⟨h1, h2⟩ <;> simp [h1, h2, hp0]
  unfold Box.mulT
  simp only [hr, if_true, fromPoints_two, bind, Except.bind, pure, Except.pure]
  refine ⟨_, rfl, fun p hp => ?_⟩
  obtain ⟨h1, h2, h3, h4⟩ := hp
  have mulz : ∀ y : Fl R, (y * 0).val = 0 := fun y => by rw [Fl.mul_val, Fl.zero_val, mul_zero, R.zero]
  have idem : ∀ z : Fl R, R.rnd z.val = z.val := fun z => z.fixed
  -- the coordinate as a monotone or antitone function of one coordinate of the point
  have key : ∀ lo hi x a c : Fl R, lo ≤ x → x ≤ hi →
      min (lo * a + c) (hi * a + c) ≤ x * a + c ∧ x * a + c ≤ max (lo * a + c) (hi * a + c) := by
    intro lo hi x a c hl hh
    rw [Fl.le_iff] at hl hh
    have mono : ∀ s t : Fl R, s.val * a.val ≤ t.val * a.val → s * a + c ≤ t * a + c := by
      intro s t h
      rw [Fl.le_iff, Fl.add_val, Fl.add_val]
      refine R.mono _ _ ?_
      rw [Fl.mul_val, Fl.mul_val]
      have := R.mono _ _ h
      linarith
    rcases le_total 0 a.val with ha | ha
    · exact ⟨(min_le_left _ _).trans (mono _ _ (mul_le_mul_of_nonneg_right hl ha)),
        (mono _ _ (mul_le_mul_of_nonneg_right hh ha)).trans (le_max_right _ _)⟩
    · exact ⟨(min_le_right _ _).trans (mono _ _ (mul_le_mul_of_nonpos_right hh ha)),
        (mono _ _ (mul_le_mul_of_nonpos_right hl ha)).trans (le_max_left _ _)⟩
  have e1 : ∀ x a y c : Fl R, (x * a + y * 0 + c) * 1 = x * a + c := by
    intro x a y c
    rw [f_mul_one]
    congr 1
    apply Fl.ext
    rw [Fl.add_val, mulz, add_zero, (x * a).fixed]
  have e2 : ∀ x a y c : Fl R, (x * 0 + y * a + c) * 1 = y * a + c := by
    intro x a y c
    rw [f_mul_one]
    congr 1
    apply Fl.ext
    rw [Fl.add_val, mulz, zero_add, (y * a).fixed]
  unfold Box.Encloses Affine.apply
  rcases hT with ⟨t1, t2⟩ | ⟨t1, t2⟩
  · simp only [t1, t2, e1, e2, Vec2.mk']
    exact ⟨(key _ _ _ _ _ h1 h2).1, (key _ _ _ _ _ h1 h2).2, (key _ _ _ _ _ h3 h4).1, (key _ _ _ _ _ h3 h4).2⟩
  · simp only [t1, t2, e1, e2, Vec2.mk']
    exact ⟨(key _ _ _ _ _ h3 h4).1, (key _ _ _ _ _ h3 h4).2, (key _ _ _ _ _ h1 h2).1, (key _ _ _ _ _ h1 h2).2⟩

/-- **C83** Whatever the rounding: `fit` of a box raises ZeroDivisionError exactly for boxes without width or height. -/
theorem C83_fit_raises (frame s : Box (Fl R)) :
    (frame.fitBox s = .error .zeroDivisionError ↔ s.min.x = s.max.x ∨ s.min.y = s.max.y) ∧
    (¬ (s.min.x = s.max.x ∨ s.min.y = s.max.y) → ∃ r, frame.fitBox s = .ok r) := by
  have z : ∀ a b : Fl R, (b - a == 0) = true ↔ a = b := by
    intro a b
    rw [beq_iff_eq]
    exact ⟨fun h => (RoundedArith.eq_of_sub _ _ h).symm, fun h => by rw [h]; exact RoundedArith.sub_self _⟩
  unfold Box.fitBox pydiv Box.width Box.height
  simp only [z, Box.fromCenter, fromPoints_two]
  by_cases h1 : s.min.x = s.max.x <;> by_cases h2 : s.min.y = s.max.y <;>
    simp [h1, h2, bind, Except.bind]

end Any

/-! ### doubles -/

theorem real_two : ((1 : Double) + 1).real = 2 := by
  have h := double_float 2 0 (by norm_num) (by norm_num) (by norm_num)
  have : ((1 : Double) + 1).val = 2 := by
    rw [Fl.add_val, Fl.one_val]
    norm_num at h ⊢
    exact h
  unfold Fl.real
  rw [this]; norm_num

theorem real_half : ((1 : Double) / (1 + 1)).real = 1 / 2 := by
  have h := double_float 1 (-1) (by norm_num) (by norm_num) (by norm_num)
  have h2 : ((1 : Double) + 1).val = 2 := by
    have := real_two
    unfold Fl.real at this
    exact_mod_cast this
  have : ((1 : Double) / (1 + 1)).val = 1 / 2 := by
    rw [Fl.div_val, Fl.one_val, h2]
    norm_num at h ⊢
    exact h
  unfold Fl.real
  rw [this]; norm_num

theorem real_min (a b : Double) : (min a b).real = min a.real b.real := by
  rcases le_total a b with h | h
  · rw [min_eq_left h, min_eq_left (real_le.mpr h)]
  · rw [min_eq_right h, min_eq_right (real_le.mpr h)]

theorem real_max (a b : Double) : (max a b).real = max a.real b.real := by
  rcases le_total a b with h | h
  · rw [max_eq_right h, max_eq_right (real_le.mpr h)]
  · rw [max_eq_left h, max_eq_left (real_le.mpr h)]

theorem boxMin_near {a b x y δ : ℝ} (h1 : |a - x| ≤ δ) (h2 : |b - y| ≤ δ) : |min a b - min x y| ≤ δ ∧ |max a b - max x y| ≤ δ := by
  obtain ⟨p1, p2⟩ := abs_le.mp h1
  obtain ⟨q1, q2⟩ := abs_le.mp h2
  constructor <;> rw [abs_le] <;> rcases le_total a b with h | h <;> rcases le_total x y with h' | h' <;>
    simp only [h, h', min_eq_left, min_eq_right, max_eq_left, max_eq_right] <;> constructor <;> linarith

/-- A coordinate less or more the half of an amount. -/
theorem boxSide_near {c t w A : ℝ} {m p : ℝ} {u η : ℝ} (hu : 0 ≤ u) (hu' : u ≤ 1 / 1000) (hη : 0 ≤ η) (ht : |t - w / 2| ≤ u * |w / 2| + η)
    (hm : |m - (c - t)| ≤ u * |c - t|) (hp : |p - (c + t)| ≤ u * |c + t| + η) (hA : |c| + |w| ≤ A) :
    |m - (c - w / 2)| ≤ 2 * u * A + 4 * η ∧ |p - (c + w / 2)| ≤ 2 * u * A + 4 * η := by
  have hw : |w / 2| = |w| / 2 := by rw [abs_div]; norm_num
  rw [hw] at ht
  have hw0 := abs_nonneg w
  have hc0 := abs_nonneg c
  have bt : |t| ≤ |w| / 2 + (u * (|w| / 2) + η) := by
    have := abs_sub_abs_le_abs_sub t (w / 2); rw [hw] at this; linarith
  have b1 : |c - t| ≤ |c| + |t| := abs_sub _ _
  have b2 : |c + t| ≤ |c| + |t| := abs_add_le _ _
  have uw : u * (|w| / 2) ≤ 1 / 1000 * (|w| / 2) := mul_le_mul_of_nonneg_right hu' (by linarith)
  have k : u * (|c| + |t|) ≤ u * (|c| + 6 / 10 * |w|) + η := by
    have h1 : u * (|c| + |t|) ≤ u * (|c| + 6 / 10 * |w| + η) := mul_le_mul_of_nonneg_left (by linarith) hu
    have h2 : u * η ≤ 1 / 1000 * η := mul_le_mul_of_nonneg_right hu' hη
    have e : u * (|c| + 6 / 10 * |w| + η) = u * (|c| + 6 / 10 * |w|) + u * η := by ring
    linarith
  have k1 := (mul_le_mul_of_nonneg_left b1 hu).trans k
  have k2 := (mul_le_mul_of_nonneg_left b2 hu).trans k
  have fin : u * (|c| + 6 / 10 * |w|) + u * (|w| / 2) ≤ 2 * u * A := by
    have : u * (|c| + 6 / 10 * |w|) + u * (|w| / 2) = u * (|c| + 11 / 10 * |w|) := by ring
    rw [this, mul_assoc, mul_left_comm]
    have := mul_le_mul_of_nonneg_left (show |c| + 11 / 10 * |w| ≤ 2 * A by linarith) hu
    linarith
  constructor
  · have e : m - (c - w / 2) = (m - (c - t)) - (t - w / 2) := by ring
    rw [e]
    refine (abs_sub _ _).trans ?_
    linarith
  · have e : p - (c + w / 2) = (p - (c + t)) + (t - w / 2) := by ring
    rw [e]
    refine (abs_add_le _ _).trans ?_
    linarith

theorem u52 : 1 / (2 : ℝ) ^ 52 = 2 * uR := by norm_num [uR]
theorem η1073 : 1 / (2 : ℝ) ^ 1073 = 4 * ηR := by
  have h := inv_pow_split (m := 1073) (n := 2)
  have e : ηR = 1 / 2 ^ (1073 + 2) := rfl
  rw [e, h]
  generalize 1 / (2 : ℝ) ^ 1073 = z
  norm_num
  ring

theorem boxRoom : ∃ P Q : ℝ, (2 : ℝ) ^ 1000 = P ∧ (2 : ℝ) ^ 1023 = Q ∧ 1 ≤ P ∧ 4 * P ≤ Q := by
  refine ⟨_, _, rfl, rfl, one_le_pow₀ (by norm_num), ?_⟩
  have h : (2 : ℝ) ^ 1002 ≤ 2 ^ 1023 := pow_le_real (by norm_num)
  have e : (2 : ℝ) ^ 1002 = 4 * 2 ^ 1000 := by rw [pow_succ, pow_succ]; ring
  rw [← e]; exact h

/-- The corners of a box that reaches `t` (nearly `w / 2`) beyond two coordinates. -/
theorem boxSides_near {a b t : Double} {w : ℝ} {A : ℝ} (ht : |t.real - w / 2| ≤ uR * |w / 2| + ηR) (hA : |a.real| + |b.real| + |w| ≤ A)
    (hM : A ≤ 2 ^ 1000) :
    Near (1 / 2 ^ 52) A (1 / 2 ^ 1073) (min (a - t) (b + t)) (min (a.real - w / 2) (b.real + w / 2)) ∧
    Near (1 / 2 ^ 52) A (1 / 2 ^ 1073) (max (a - t) (b + t)) (max (a.real - w / 2) (b.real + w / 2)) := by
  have ha := abs_nonneg a.real
  have hb := abs_nonneg b.real
  have hw := abs_nonneg w
  obtain ⟨P, Q, hP, hQ, hP1, hPQ⟩ := boxRoom
  rw [hP] at hM
  have hη : ηR ≤ 1 := by have := ηR_small; have := uR_small; have := ηR_pos; linarith
  have bt : |t.real| ≤ A + 1 := by
    have h1 := abs_sub_abs_le_abs_sub t.real (w / 2)
    have h2 : |w / 2| = |w| / 2 := by rw [abs_div]; norm_num
    have h3 : uR * |w / 2| ≤ 1 / 1000 * |w / 2| := mul_le_mul_of_nonneg_right uR_small (abs_nonneg _)
    rw [h2] at h1 h3 ht
    linarith
  have g1 : |a.real - t.real| ≤ 2 ^ 1023 := by rw [hQ]; exact (abs_sub _ _).trans (by linarith only [bt, hA, hM, hP1, hPQ, ha, hb, hw])
  have g2 : |b.real + t.real| ≤ 2 ^ 1023 := by rw [hQ]; exact (abs_add_le _ _).trans (by linarith only [bt, hA, hM, hP1, hPQ, ha, hb, hw])
  clear hP hQ
  have s1 := sub_ok a t g1
  have s2 := add_ok b t g2
  have n1 := (boxSide_near (c := a.real) (t := t.real) (w := w) (A := A) (m := (a - t).real) (p := a.real + t.real) uR_pos.le uR_small
    ηR_pos ht s1 (by rw [sub_self, abs_zero]; exact add_nonneg (mul_nonneg uR_pos.le (abs_nonneg _)) ηR_pos) (by linarith)).1
  have n2 := (boxSide_near (c := b.real) (t := t.real) (w := w) (A := A) (m := b.real - t.real) (p := (b + t).real) uR_pos.le uR_small
    ηR_pos ht (by rw [sub_self, abs_zero]; exact mul_nonneg uR_pos.le (abs_nonneg _)) s2 (by linarith)).2
  unfold Near
  rw [real_min, real_max, u52, η1073]
  exact boxMin_near n1 n2

/-- **C83** `from_center` in doubles: the sides are half the (absolute) size away from the centre, up to rounding. -/
theorem C83_from_center (c : Vec2 Double) (w h : Double) (M : ℝ) (hM : M ≤ 2 ^ 900)
    (hx : |c.x.real| + |c.y.real| + |w.real| + |h.real| ≤ M) :
    ∃ r, Box.fromCenter c w h = .ok r ∧
      Near (1 / 2 ^ 51) M (1 / 2 ^ 1073) r.min.x (c.x.real - |w.real| / 2) ∧
      Near (1 / 2 ^ 51) M (1 / 2 ^ 1073) r.max.x (c.x.real + |w.real| / 2) ∧
      Near (1 / 2 ^ 51) M (1 / 2 ^ 1073) r.min.y (c.y.real - |h.real| / 2) ∧
      Near (1 / 2 ^ 51) M (1 / 2 ^ 1073) r.max.y (c.y.real + |h.real| / 2) := by
  unfold Box.fromCenter
  simp only [fromPoints_two]
  refine ⟨_, rfl, ?_⟩
  obtain ⟨P, Q, hP, hQ, hP1, hPQ⟩ := boxRoom
  have hMP : 2 * M ≤ P := by
    have h1 : (2 : ℝ) ^ 901 ≤ 2 ^ 1000 := pow_le_real (by norm_num)
    rw [hP, pow_succ] at h1
    generalize (2 : ℝ) ^ 900 = N at hM h1
    linarith only [hM, h1]
  clear hM
  have key : ∀ c w : Double, |c.real| + |w.real| ≤ M →
      Near (1 / 2 ^ 51) M (1 / 2 ^ 1073) (min (c - w * (1 / (1 + 1))) (c + w * (1 / (1 + 1)))) (c.real - |w.real| / 2) ∧
      Near (1 / 2 ^ 51) M (1 / 2 ^ 1073) (max (c - w * (1 / (1 + 1))) (c + w * (1 / (1 + 1)))) (c.real + |w.real| / 2) := by
    intro c w hcw
    have hw := abs_nonneg w.real
    have hc := abs_nonneg c.real
    have hmul := mul_ok w (1 / (1 + 1)) (by
      rw [real_half, abs_mul]
      have : |(1 : ℝ) / 2| = 1 / 2 := by norm_num
      rw [this, hQ]
      linarith only [hcw, hw, hc, hMP, hP1, hPQ])
    rw [real_half, mul_one_div] at hmul
    have h := boxSides_near (a := c) (b := c) (t := w * (1 / (1 + 1))) (w := w.real) (A := 2 * M) hmul (by linarith) (by rw [hP]; exact hMP)
    have e : ∀ c w : ℝ, min (c - w / 2) (c + w / 2) = c - |w| / 2 ∧ max (c - w / 2) (c + w / 2) = c + |w| / 2 := by
      intro c w
      rcases le_total 0 w with h | h
      · rw [abs_of_nonneg h]; exact ⟨min_eq_left (by linarith), max_eq_right (by linarith)⟩
      · rw [abs_of_nonpos h]
        exact ⟨by rw [min_eq_right (by linarith)]; ring, by rw [max_eq_left (by linarith)]; ring⟩
    rw [(e _ _).1, (e _ _).2] at h
    have e5 : 1 / (2 : ℝ) ^ 52 * (2 * M) = 1 / 2 ^ 51 * M := by ring
    unfold Near at h ⊢
    rw [e5] at h
    exact h
  have h1 := abs_nonneg c.x.real
  have h2 := abs_nonneg c.y.real
  have h3 := abs_nonneg w.real
  have h4 := abs_nonneg h.real
  exact ⟨(key c.x w (by linarith)).1, (key c.x w (by linarith)).2, (key c.y h (by linarith)).1, (key c.y h (by linarith)).2⟩

theorem boxHalf_near {d : Double} (h : |d.real| ≤ 2 ^ 1000) : |(d / (1 + 1)).real - d.real / 2| ≤ uR * |d.real / 2| + ηR := by
  obtain ⟨P, Q, hP, hQ, hP1, hPQ⟩ := boxRoom
  rw [hP] at h
  have := div_ok d (1 + 1) (by
    rw [real_two, hQ, abs_div, abs_two]
    have := abs_nonneg d.real
    linarith only [h, hP1, hPQ, this])
  rwa [real_two] at this

/-- **C83** `inflate` in doubles: every side moves outwards by half the amount, up to rounding (sides that would cross are
exchanged). -/
theorem C83_inflate (b : Box Double) (d : Vec2 Double) (M : ℝ) (hM : M ≤ 2 ^ 1000)
    (hx : |b.min.x.real| + |b.max.x.real| + |d.x.real| ≤ M) (hy : |b.min.y.real| + |b.max.y.real| + |d.y.real| ≤ M) :
    ∃ r, b.inflateV d = .ok r ∧
      Near (1 / 2 ^ 52) M (1 / 2 ^ 1073) r.min.x (min (b.min.x.real - d.x.real / 2) (b.max.x.real + d.x.real / 2)) ∧
      Near (1 / 2 ^ 52) M (1 / 2 ^ 1073) r.max.x (max (b.min.x.real - d.x.real / 2) (b.max.x.real + d.x.real / 2)) ∧
      Near (1 / 2 ^ 52) M (1 / 2 ^ 1073) r.min.y (min (b.min.y.real - d.y.real / 2) (b.max.y.real + d.y.real / 2)) ∧
      Near (1 / 2 ^ 52) M (1 / 2 ^ 1073) r.max.y (max (b.min.y.real - d.y.real / 2) (b.max.y.real + d.y.real / 2)) := by
  unfold Box.inflateV
  simp only [Vec2.copy_fl, fromPoints_two]
  refine ⟨_, rfl, ?_⟩
  have key : ∀ a b d : Double, |a.real| + |b.real| + |d.real| ≤ M → |d.real| ≤ 2 ^ 1000 := by
    intro a b d h
    have h1 := abs_nonneg a.real
    have h2 := abs_nonneg b.real
    exact (show |d.real| ≤ M by linarith only [h, h1, h2]).trans hM
  have k1 := boxSides_near (a := b.min.x) (b := b.max.x) (boxHalf_near (key _ _ _ hx)) hx hM
  have k2 := boxSides_near (a := b.min.y) (b := b.max.y) (boxHalf_near (key _ _ _ hy)) hy hM
  exact ⟨k1.1, k1.2, k2.1, k2.2⟩

/-- Twice a double is a double unless it overflows. -/
theorem double_twice (a : Double) (h : |a.val| ≤ 2 ^ 1022) : double.rnd (2 * a.val) = 2 * a.val := by
  have e : (2 : ℚ) ^ 1023 = 2 * 2 ^ 1022 := by rw [pow_succ]; ring
  have h1 : |2 * a.val| ≤ 2 ^ 1023 := by
    rw [abs_mul, abs_two, e]; exact mul_le_mul_of_nonneg_left h (by norm_num)
  have h2 : |a.val| ≤ 2 ^ 1023 := h.trans (pow_le_pow_right₀ (by norm_num) (by norm_num))
  rw [double_rnd_of_le h1]
  have hf := a.fixed
  change double.rnd a.val = a.val at hf
  rw [double_rnd_of_le h2] at hf
  obtain ⟨n, k, hk, hn, hv⟩ := roundMin_steps (p := 53) (e := -1074) a.val
  rw [hf] at hv
  have := roundMin_float (F := ℚ) (p := 53) (by norm_num) (e := -1074) n (k + 1) (by omega) hn
  have e2 : (n : ℚ) * 2 ^ (k + 1) = 2 * a.val := by rw [hv, zpow_add₀ (by norm_num)]; ring
  rwa [e2] at this

/-- The middle of two doubles. -/
theorem boxMid_near {a b : Double} (ha : |a.real| ≤ 2 ^ 1000) (hb : |b.real| ≤ 2 ^ 1000) :
    |((a + b) / (1 + 1)).real - (a.real + b.real) / 2| ≤ 11 / 10 * uR * |a.real + b.real| + 2 * ηR := by
  obtain ⟨P, Q, hP, hQ, hP1, hPQ⟩ := boxRoom
  rw [hP] at ha hb
  have hη := ηR_pos
  have hab : |a.real + b.real| ≤ 2 * P := (abs_add_le _ _).trans (by linarith only [ha, hb])
  have s1 := add_ok a b (by rw [hQ]; linarith only [hab, hPQ, hP1])
  have hn := abs_nonneg (a.real + b.real)
  have hu := uR_pos
  have hu1 : uR * |a.real + b.real| ≤ 1 / 1000 * |a.real + b.real| := mul_le_mul_of_nonneg_right uR_small hn
  have hη1 : ηR ≤ 1 := by have := ηR_small; have := uR_small; linarith
  have b1 : |(a + b).real| ≤ 1001 / 1000 * |a.real + b.real| + ηR := by
    have := abs_sub_abs_le_abs_sub (a + b).real (a.real + b.real)
    linarith only [this, s1, hu1]
  have s2 := div_ok (a + b) (1 + 1) (by
    rw [real_two, hQ, abs_div, abs_two]
    linarith only [b1, hab, hPQ, hP1, hη1])
  rw [real_two] at s2
  clear hP hQ
  have e1 : |(a + b).real / 2| = |(a + b).real| / 2 := by rw [abs_div, abs_two]
  rw [e1] at s2
  have k : uR * (|(a + b).real| / 2) ≤ uR * (501 / 1000 * |a.real + b.real|) + 1 / 100 * ηR := by
    have h1 := mul_le_mul_of_nonneg_left (show |(a + b).real| / 2 ≤ 501 / 1000 * |a.real + b.real| + ηR by linarith only [b1, hn, hη]) hu.le
    have h2 : uR * ηR ≤ 1 / 1000 * ηR := mul_le_mul_of_nonneg_right uR_small hη
    rw [mul_add] at h1
    linarith only [h1, h2, hη]
  have e : ((a + b) / (1 + 1)).real - (a.real + b.real) / 2 =
      (((a + b) / (1 + 1)).real - (a + b).real / 2) + ((a + b).real - (a.real + b.real)) / 2 := by ring
  rw [e]
  refine (abs_add_le _ _).trans ?_
  rw [abs_div ((a + b).real - _), abs_two]
  have hun : 0 ≤ uR * |a.real + b.real| := mul_nonneg hu.le hn
  linarith

/-- **C83** `center` in doubles is in the box, with its sides, and the middle up to rounding. -/
theorem C83_center (b : Box Double) (hb : b.min.x ≤ b.max.x ∧ b.min.y ≤ b.max.y) (M : ℝ) (hM : M ≤ 2 ^ 1000)
    (h1 : |b.min.x.real| ≤ M ∧ |b.max.x.real| ≤ M) (h2 : |b.min.y.real| ≤ M ∧ |b.max.y.real| ≤ M) :
    b.Encloses b.center ∧
    Near (1 / 2 ^ 52) |b.min.x.real + b.max.x.real| (1 / 2 ^ 1074) b.center.x ((b.min.x.real + b.max.x.real) / 2) ∧
    Near (1 / 2 ^ 52) |b.min.y.real + b.max.y.real| (1 / 2 ^ 1074) b.center.y ((b.min.y.real + b.max.y.real) / 2) := by
  have e1074 : 1 / (2 : ℝ) ^ 1074 = 2 * ηR := by
    have key : ∀ n : ℕ, 1 / (2 : ℝ) ^ n = 2 * (1 / 2 ^ (n + 1)) := by
      intro n; rw [inv_pow_split]; ring
    exact key 1074
  have near : ∀ a b : Double, |a.real| ≤ M → |b.real| ≤ M →
      Near (1 / 2 ^ 52) |a.real + b.real| (1 / 2 ^ 1074) ((a + b) / (1 + 1)) ((a.real + b.real) / 2) := by
    intro a b ha hb
    unfold Near
    rw [u52, e1074]
    have := boxMid_near (ha.trans hM) (hb.trans hM)
    have h0 : 0 ≤ uR * |a.real + b.real| := mul_nonneg uR_pos.le (abs_nonneg _)
    linarith
  have two : ((1 : Double) + 1).val = 2 := by
    have := real_two
    unfold Fl.real at this
    exact_mod_cast this
  have inside : ∀ a b : Double, |a.real| ≤ M → |b.real| ≤ M → a ≤ b → a ≤ (a + b) / (1 + 1) ∧ (a + b) / (1 + 1) ≤ b := by
    intro a b ha hb hab
    rw [Fl.le_iff] at hab
    have small : ∀ x : Double, |x.real| ≤ M → |x.val| ≤ 2 ^ 1022 := by
      intro x hx
      have : ((|x.val| : ℚ) : ℝ) ≤ ((2 ^ 1022 : ℚ) : ℝ) := by
        push_cast
        exact (hx.trans hM).trans (pow_le_real (by norm_num))
      exact Rat.cast_le.mp this
    have ta := double_twice a (small a ha)
    have tb := double_twice b (small b hb)
    have l1 := double.mono (2 * a.val) (a.val + b.val) (by linarith)
    have l2 := double.mono (a.val + b.val) (2 * b.val) (by linarith)
    rw [ta] at l1
    rw [tb] at l2
    constructor
    · rw [Fl.le_iff, Fl.div_val, two]
      calc a.val = double.rnd a.val := a.fixed.symm
        _ ≤ _ := double.mono _ _ (by rw [Fl.add_val]; linarith)
    · rw [Fl.le_iff, Fl.div_val, two]
      calc double.rnd ((a + b).val / 2) ≤ double.rnd b.val := double.mono _ _ (by rw [Fl.add_val]; linarith)
        _ = b.val := b.fixed
  have i1 := inside _ _ h1.1 h1.2 hb.1
  have i2 := inside _ _ h2.1 h2.2 hb.2
  exact ⟨⟨i1.1, i1.2, i2.1, i2.2⟩, near _ _ h1.1 h1.2, near _ _ h2.1 h2.2⟩

/-! ### fit -/

/-- A quotient of numbers with relative errors. -/
theorem fitQuotE {W w W' w' q u η : ℝ} (hu : 0 ≤ u) (hu' : u ≤ 1 / 1000) (hW : 0 ≤ W) (hw : 0 < w)
    (h1 : |W' - W| ≤ u * W) (h2 : |w' - w| ≤ u * w) (hq : |q - W' / w'| ≤ u * |W' / w'| + η) :
    |q - W / w| ≤ 4 * u * (W / w) + η ∧ |W' / w'| ≤ 2 * (W / w) := by
  obtain ⟨a1, a2⟩ := abs_le.mp h1
  obtain ⟨b1, b2⟩ := abs_le.mp h2
  have uw : u * w ≤ 1 / 1000 * w := mul_le_mul_of_nonneg_right hu' hw.le
  have uW : u * W ≤ 1 / 1000 * W := mul_le_mul_of_nonneg_right hu' hW
  have hw' : 0 < w' := by linarith
  have hW' : 0 ≤ W' := by linarith
  set X := W / w with hX
  have hX0 : 0 ≤ X := div_nonneg hW hw.le
  have eW : W = X * w := by rw [hX]; field_simp
  have up : W' / w' ≤ (1 + 21 / 10 * u) * X := by
    rw [div_le_iff₀ hw']
    have h3 : (1 + 21 / 10 * u) * X * w' ≥ (1 + 21 / 10 * u) * X * ((1 - u) * w) :=
      mul_le_mul_of_nonneg_left (by linarith) (mul_nonneg (by linarith) hX0)
    have h4 : (1 + 21 / 10 * u) * X * ((1 - u) * w) = (1 + 21 / 10 * u) * (1 - u) * W := by rw [eW]; ring
    have h5 : (1 + u) * W ≤ (1 + 21 / 10 * u) * (1 - u) * W := by
      refine mul_le_mul_of_nonneg_right ?_ hW
      have : u * u ≤ 1 / 1000 * u := mul_le_mul_of_nonneg_right hu' hu
      linarith
    linarith
  have lo : (1 - 2 * u) * X ≤ W' / w' := by
    rw [le_div_iff₀ hw']
    have h3 : (1 - 2 * u) * X * w' ≤ (1 - 2 * u) * X * ((1 + u) * w) :=
      mul_le_mul_of_nonneg_left (by linarith) (mul_nonneg (by linarith) hX0)
    have h4 : (1 - 2 * u) * X * ((1 + u) * w) = (1 - 2 * u) * (1 + u) * W := by rw [eW]; ring
    have h5 : (1 - 2 * u) * (1 + u) * W ≤ (1 - u) * W := by
      refine mul_le_mul_of_nonneg_right ?_ hW
      have : 0 ≤ u * u := mul_self_nonneg u
      linarith
    linarith
  have uX : u * X ≤ 1 / 1000 * X := mul_le_mul_of_nonneg_right hu' hX0
  have uX0 : 0 ≤ u * X := mul_nonneg hu hX0
  have hQ0 : 0 ≤ W' / w' := div_nonneg hW' hw'.le
  rw [abs_of_nonneg hQ0] at hq ⊢
  have k : u * (W' / w') ≤ u * (11 / 10 * X) := mul_le_mul_of_nonneg_left (by linarith) hu
  obtain ⟨q1, q2⟩ := abs_le.mp hq
  refine ⟨abs_le.mpr ⟨?_, ?_⟩, by linarith⟩ <;> linarith

theorem fitMinE {A B p q u η : ℝ} (hu : 0 ≤ u) (hu' : 4 * u ≤ 1) (h1 : |p - A| ≤ 4 * u * A + η)
    (h2 : |q - B| ≤ 4 * u * B + η) : |min p q - min A B| ≤ 4 * u * min A B + η := by
  obtain ⟨a1, a2⟩ := abs_le.mp h1
  obtain ⟨b1, b2⟩ := abs_le.mp h2
  have lo : (1 - 4 * u) * min A B - η ≤ min p q := by
    refine le_min ?_ ?_
    · have := mul_le_mul_of_nonneg_left (min_le_left A B) (show 0 ≤ 1 - 4 * u by linarith); linarith
    · have := mul_le_mul_of_nonneg_left (min_le_right A B) (show 0 ≤ 1 - 4 * u by linarith); linarith
  have up : min p q ≤ (1 + 4 * u) * min A B + η := by
    rcases le_total A B with h | h
    · rw [min_eq_left h]; exact (min_le_left _ _).trans (by linarith)
    · rw [min_eq_right h]; exact (min_le_right _ _).trans (by linarith)
  rw [abs_le]
  constructor <;> linarith

/-- The scaled size. -/
theorem fitScaledE {w w' S S' p u η : ℝ} (hu : 0 ≤ u) (hu' : u ≤ 1 / 1000) (hη : 0 ≤ η) (hw : 0 ≤ w) (hS : 0 ≤ S)
    (h1 : |w' - w| ≤ u * w) (h2 : |S' - S| ≤ 4 * u * S + η) (hp : |p - w' * S'| ≤ u * |w' * S'| + η) :
    |p - w * S| ≤ 7 * u * (w * S) + 2 * w * η + η ∧ |w' * S'| ≤ 2 * (w * S) + 2 * w * η := by
  have hwS : 0 ≤ w * S := mul_nonneg hw hS
  have hwη : 0 ≤ w * η := mul_nonneg hw hη
  have uwS : u * (w * S) ≤ 1 / 1000 * (w * S) := mul_le_mul_of_nonneg_right hu' hwS
  have uwη : u * (w * η) ≤ 1 / 1000 * (w * η) := mul_le_mul_of_nonneg_right hu' hwη
  have uwS0 : 0 ≤ u * (w * S) := mul_nonneg hu hwS
  have uw : u * w ≤ 1 / 1000 * w := mul_le_mul_of_nonneg_right hu' hw
  have bw : |w'| ≤ 1001 / 1000 * w := by
    have := abs_sub_abs_le_abs_sub w' w
    rw [abs_of_nonneg hw] at this
    linarith
  have d : |w' * S' - w * S| ≤ 51 / 10 * u * (w * S) + 1001 / 1000 * (w * η) := by
    have e : w' * S' - w * S = w' * (S' - S) + (w' - w) * S := by ring
    rw [e]
    refine (abs_add_le _ _).trans ?_
    rw [abs_mul, abs_mul, abs_of_nonneg hS]
    have h3 : |w'| * |S' - S| ≤ 1001 / 1000 * w * (4 * u * S + η) :=
      mul_le_mul bw h2 (abs_nonneg _) (by linarith)
    have h4 : |w' - w| * S ≤ u * w * S := mul_le_mul_of_nonneg_right h1 hS
    have e3 : 1001 / 1000 * w * (4 * u * S + η) = 4004 / 1000 * (u * (w * S)) + 1001 / 1000 * (w * η) := by ring
    have e4 : u * w * S = u * (w * S) := by ring
    linarith
  have b : |w' * S'| ≤ 101 / 100 * (w * S) + 1001 / 1000 * (w * η) := by
    have := abs_sub_abs_le_abs_sub (w' * S') (w * S)
    rw [abs_of_nonneg hwS] at this
    linarith
  have k := mul_le_mul_of_nonneg_left b hu
  have e : u * (101 / 100 * (w * S) + 1001 / 1000 * (w * η)) = 101 / 100 * (u * (w * S)) + 1001 / 1000 * (u * (w * η)) := by ring
  refine ⟨?_, by linarith⟩
  have e2 : p - w * S = (p - w' * S') + (w' * S' - w * S) := by ring
  rw [e2]
  refine (abs_add_le _ _).trans ?_
  linarith

/-- A side of the fitted box. -/
theorem fitE {w S p t c c' m r M u η : ℝ} (hu : 0 ≤ u) (hu' : u ≤ 1 / 1000) (hη : 0 ≤ η) (hM : 0 ≤ M) (hw : 0 ≤ w)
    (hS : 0 ≤ S) (hwS : w * S ≤ 2 * M) (hc : |c| ≤ M) (tiny : 10 * (w * η) + 20 * η ≤ u * M)
    (hp : |p - w * S| ≤ 7 * u * (w * S) + 2 * w * η + η) (ht : |t - p / 2| ≤ u * |p / 2| + η)
    (hc' : |c' - c| ≤ 3 * u * M + 2 * η) (hm : |m - (c' - t)| ≤ u * |c' - t|) (hr : |r - (c' + t)| ≤ u * |c' + t| + η) :
    |m - (c - w * S / 2)| ≤ 16 * u * M ∧ |r - (c + w * S / 2)| ≤ 16 * u * M := by
  have hwS0 : 0 ≤ w * S := mul_nonneg hw hS
  have hwη : 0 ≤ w * η := mul_nonneg hw hη
  have uwS : u * (w * S) ≤ u * (2 * M) := mul_le_mul_of_nonneg_left hwS hu
  have uM : u * M ≤ 1 / 1000 * M := mul_le_mul_of_nonneg_right hu' hM
  have uM0 : 0 ≤ u * M := mul_nonneg hu hM
  have hp1 : |p - w * S| ≤ 143 / 10 * (u * M) := by
    have e : 7 * u * (w * S) = 7 * (u * (w * S)) := by ring
    have e' : 2 * w * η = 2 * (w * η) := by ring
    rw [e, e'] at hp
    linarith
  have bp : |p| ≤ 21 / 10 * M := by
    have := abs_sub_abs_le_abs_sub p (w * S)
    rw [abs_of_nonneg hwS0] at this
    linarith
  have e2 : |p / 2| = |p| / 2 := by rw [abs_div, abs_two]
  rw [e2] at ht
  have kp : u * (|p| / 2) ≤ u * (21 / 20 * M) := mul_le_mul_of_nonneg_left (by linarith) hu
  have ht1 : |t - w * S / 2| ≤ 83 / 10 * (u * M) := by
    have e : t - w * S / 2 = (t - p / 2) + (p - w * S) / 2 := by ring
    rw [e]
    refine (abs_add_le _ _).trans ?_
    rw [abs_div, abs_two]
    linarith
  have hc1 : |c' - c| ≤ 31 / 10 * (u * M) := by linarith
  have bt : |t| ≤ 11 / 10 * M := by
    have := abs_sub_abs_le_abs_sub t (w * S / 2)
    rw [abs_of_nonneg (show 0 ≤ w * S / 2 by linarith)] at this
    linarith
  have bc : |c'| ≤ 11 / 10 * M := by
    have := abs_sub_abs_le_abs_sub c' c
    linarith
  have k1 := mul_le_mul_of_nonneg_left ((abs_sub c' t).trans (add_le_add bc bt)) hu
  have k2 := mul_le_mul_of_nonneg_left ((abs_add_le c' t).trans (add_le_add bc bt)) hu
  constructor
  · have e : m - (c - w * S / 2) = (m - (c' - t)) + ((c' - c) - (t - w * S / 2)) := by ring
    rw [e]
    have h1 := abs_add_le (m - (c' - t)) ((c' - c) - (t - w * S / 2))
    have h2 := abs_sub (c' - c) (t - w * S / 2)
    linarith
  · have e : r - (c + w * S / 2) = (r - (c' + t)) + ((c' - c) + (t - w * S / 2)) := by ring
    rw [e]
    have h1 := abs_add_le (r - (c' + t)) ((c' - c) + (t - w * S / 2))
    have h2 := abs_add_le (c' - c) (t - w * S / 2)
    linarith

theorem small_room : ∃ N P Q : ℝ, (2 : ℝ) ^ 500 = N ∧ (2 : ℝ) ^ 1000 = P ∧ (2 : ℝ) ^ 1023 = Q ∧ 1 ≤ N ∧ N * N = P ∧ 64 * P ≤ Q ∧
    (∀ w M : ℝ, 0 ≤ w → w ≤ 2 * N → 1 / N ≤ M → 10 * (w * ηR) + 20 * ηR ≤ uR * M) := by
  refine ⟨_, _, _, rfl, rfl, rfl, one_le_pow₀ (by norm_num), by rw [← pow_add], ?_, ?_⟩
  · have h : (2 : ℝ) ^ 1006 ≤ 2 ^ 1023 := pow_le_real (by norm_num)
    have e : (2 : ℝ) ^ 1006 = 64 * 2 ^ 1000 := by rw [show (1006 : ℕ) = 6 + 1000 from rfl, pow_add]; norm_num
    rw [← e]; exact h
  · intro w M hw0 hw hM
    have h1 := ηR_le (n := 1002) (by norm_num)
    have hη := ηR_pos
    have e : (1 : ℝ) / 2 ^ 1002 = 1 / 2 ^ 500 * (1 / 2 ^ 502) := inv_pow_split (m := 500) (n := 502)
    have e2 : (2 : ℝ) ^ 502 = 4 * 2 ^ 500 := by rw [show (502 : ℕ) = 2 + 500 from rfl, pow_add]; norm_num
    have hN : (1 : ℝ) ≤ 2 ^ 500 := one_le_pow₀ (by norm_num)
    rw [e, e2] at h1
    clear e e2
    generalize (2 : ℝ) ^ 500 = N at *
    have hN0 : 0 < N := by linarith only [hN]
    -- multiply by 4 N
    have h2 : 1000 * ηR * (4 * N) ≤ uR * (1 / N) := by
      have := mul_le_mul_of_nonneg_right h1 (show 0 ≤ 4 * N by linarith only [hN])
      have e3 : uR * (1 / N * (1 / (4 * N))) * (4 * N) = uR * (1 / N) := by field_simp
      rwa [e3] at this
    have h3 : uR * (1 / N) ≤ uR * M := mul_le_mul_of_nonneg_left hM uR_pos.le
    have h4 : w * ηR ≤ 2 * N * ηR := mul_le_mul_of_nonneg_right hw hη
    have h5 : ηR ≤ N * ηR := by have := mul_le_mul_of_nonneg_right hN hη; linarith
    have h6 : 0 ≤ N * ηR := by linarith
    have e4 : 1000 * ηR * (4 * N) = 4000 * (N * ηR) := by ring
    have e5 : 2 * N * ηR = 2 * (N * ηR) := by ring
    linarith

/-- **C83** `fit` of a box in doubles: with all coordinates of the frame at most `M`, every side of the result is within
`M / 2 ^ 49` of the exact one: centred in the frame, the size of the box times the smaller of the two ratios. So it is in
the frame up to `M / 2 ^ 49`. -/
theorem C83_fit (frame s : Box Double) (M : ℝ) (hM : 1 / 2 ^ 500 ≤ M) (hM' : M ≤ 2 ^ 500)
    (hf : frame.min.x ≤ frame.max.x ∧ frame.min.y ≤ frame.max.y)
    (hfm : |frame.min.x.real| ≤ M ∧ |frame.max.x.real| ≤ M ∧ |frame.min.y.real| ≤ M ∧ |frame.max.y.real| ≤ M)
    (hsm : |s.min.x.real| ≤ 2 ^ 500 ∧ |s.max.x.real| ≤ 2 ^ 500 ∧ |s.min.y.real| ≤ 2 ^ 500 ∧ |s.max.y.real| ≤ 2 ^ 500)
    (hs : 1 / 2 ^ 500 ≤ s.max.x.real - s.min.x.real ∧ 1 / 2 ^ 500 ≤ s.max.y.real - s.min.y.real) :
    let W := frame.max.x.real - frame.min.x.real
    let H := frame.max.y.real - frame.min.y.real
    let w := s.max.x.real - s.min.x.real
    let h := s.max.y.real - s.min.y.real
    let scale := min (W / w) (H / h)
    ∃ r, frame.fitBox s = .ok r ∧
      Near (1 / 2 ^ 49) M 0 r.min.x ((frame.min.x.real + frame.max.x.real) / 2 - w * scale / 2) ∧
      Near (1 / 2 ^ 49) M 0 r.max.x ((frame.min.x.real + frame.max.x.real) / 2 + w * scale / 2) ∧
      Near (1 / 2 ^ 49) M 0 r.min.y ((frame.min.y.real + frame.max.y.real) / 2 - h * scale / 2) ∧
      Near (1 / 2 ^ 49) M 0 r.max.y ((frame.min.y.real + frame.max.y.real) / 2 + h * scale / 2) ∧
      frame.min.x.real - 1 / 2 ^ 49 * M ≤ r.min.x.real ∧ r.max.x.real ≤ frame.max.x.real + 1 / 2 ^ 49 * M ∧
      frame.min.y.real - 1 / 2 ^ 49 * M ≤ r.min.y.real ∧ r.max.y.real ≤ frame.max.y.real + 1 / 2 ^ 49 * M := by
  obtain ⟨N, P, Q, hN, hP, hQ, hN1, hNP, hPQ, tiny⟩ := small_room
  rw [hN] at hM hM' hsm hs
  obtain ⟨f1, f2, f3, f4⟩ := hfm
  obtain ⟨s1, s2, s3, s4⟩ := hsm
  intro W H w h scale
  have hN0 : 0 < N := by linarith only [hN1]
  have hiN : 0 < 1 / N := by positivity
  have hM0 : 0 < M := lt_of_lt_of_le hiN hM
  have hNP' : N ≤ P := by rw [← hNP]; exact le_mul_of_one_le_left hN0.le hN1
  have hw0 : 0 < w := lt_of_lt_of_le hiN hs.1
  have hh0 : 0 < h := lt_of_lt_of_le hiN hs.2
  have hW0 : 0 ≤ W := sub_nonneg.mpr (real_le.mpr hf.1)
  have hH0 : 0 ≤ H := sub_nonneg.mpr (real_le.mpr hf.2)
  have two : ∀ {a b T : ℝ}, |a| ≤ T → |b| ≤ T → |b - a| ≤ 2 * T := fun ha hb => (abs_sub _ _).trans (by linarith)
  have hW2 : W ≤ 2 * M := (le_abs_self _).trans (two f1 f2)
  have hH2 : H ≤ 2 * M := (le_abs_self _).trans (two f3 f4)
  have hw2 : w ≤ 2 * N := (le_abs_self _).trans (two s1 s2)
  have hh2 : h ≤ 2 * N := (le_abs_self _).trans (two s3 s4)
  have hN2 : 2 * N ≤ Q := by linarith only [hNP', hPQ, hN0]
  have hM2 : 2 * M ≤ Q := by linarith only [hM', hN2]
  -- the computed sizes
  have dW : |frame.width.real - W| ≤ uR * W := by
    have := sub_ok frame.max.x frame.min.x (by rw [hQ]; exact (two f1 f2).trans hM2)
    rwa [abs_of_nonneg hW0] at this
  have dH : |frame.height.real - H| ≤ uR * H := by
    have := sub_ok frame.max.y frame.min.y (by rw [hQ]; exact (two f3 f4).trans hM2)
    rwa [abs_of_nonneg hH0] at this
  have dw : |s.width.real - w| ≤ uR * w := by
    have := sub_ok s.max.x s.min.x (by rw [hQ]; exact (two s1 s2).trans hN2)
    rwa [abs_of_nonneg hw0.le] at this
  have dh : |s.height.real - h| ≤ uR * h := by
    have := sub_ok s.max.y s.min.y (by rw [hQ]; exact (two s3 s4).trans hN2)
    rwa [abs_of_nonneg hh0.le] at this
  -- the quotients do not overflow
  have ratio : ∀ {X Y : ℝ}, 0 ≤ X → X ≤ 2 * M → 1 / N ≤ Y → X / Y ≤ 2 * P := by
    intro X Y hX hX2 hY
    have hY0 : 0 < Y := lt_of_lt_of_le hiN hY
    rw [div_le_iff₀ hY0]
    have h1 : P * (1 / N) = N := by rw [← hNP]; field_simp
    have h2 : 2 * P * (1 / N) ≤ 2 * P * Y := mul_le_mul_of_nonneg_left hY (by linarith only [hNP', hN0])
    have h3 : 2 * P * (1 / N) = 2 * N := by rw [mul_assoc, h1]
    linarith only [hX2, hM', h2, h3]
  have r1 := ratio hW0 hW2 hs.1
  have r2 := ratio hH0 hH2 hs.2
  have raw : ∀ {X Y X' Y' : ℝ}, 0 ≤ X → 0 < Y → |X' - X| ≤ uR * X → |Y' - Y| ≤ uR * Y → X / Y ≤ 2 * P → |X' / Y'| ≤ Q := by
    intro X Y X' Y' hX hY h1 h2 h3
    have := (fitQuotE (q := X' / Y') (η := 0) uR_pos.le uR_small hX hY h1 h2 (by
      rw [sub_self, abs_zero, add_zero]; exact mul_nonneg uR_pos.le (abs_nonneg _))).2
    linarith only [this, h3, hPQ, hNP', hN0]
  have q1 := (fitQuotE uR_pos.le uR_small hW0 hw0 dW dw
    (div_ok frame.width s.width (by rw [hQ]; exact raw hW0 hw0 dW dw r1))).1
  have q2 := (fitQuotE uR_pos.le uR_small hH0 hh0 dH dh
    (div_ok frame.height s.height (by rw [hQ]; exact raw hH0 hh0 dH dh r2))).1
  have pm : pymin (frame.width / s.width) (frame.height / s.height) = min (frame.width / s.width) (frame.height / s.height) := by
    unfold pymin
    split_ifs with hlt
    · rw [min_eq_right hlt.le]
    · rw [min_eq_left (not_lt.mp hlt)]
  have hscale : |(min (frame.width / s.width) (frame.height / s.height)).real - scale| ≤ 4 * uR * scale + ηR := by
    rw [real_min]
    exact fitMinE uR_pos.le (by linarith only [uR_small]) q1 q2
  have hsc0 : 0 ≤ scale := le_min (div_nonneg hW0 hw0.le) (div_nonneg hH0 hh0.le)
  have ws : w * scale ≤ W := by
    have := mul_le_mul_of_nonneg_left (min_le_left (W / w) (H / h)) hw0.le
    have e : w * (W / w) = W := by field_simp
    rwa [e] at this
  have hs' : h * scale ≤ H := by
    have := mul_le_mul_of_nonneg_left (min_le_right (W / w) (H / h)) hh0.le
    have e : h * (H / h) = H := by field_simp
    rwa [e] at this
  -- one direction
  have dir : ∀ (lo hi z : Double) (x X : ℝ), |lo.real| ≤ M → |hi.real| ≤ M → 0 ≤ x → x ≤ 2 * N → x * scale ≤ X → X ≤ 2 * M →
      |z.real - x| ≤ uR * x →
      let t := z * min (frame.width / s.width) (frame.height / s.height) * (1 / (1 + 1))
      let c := (lo + hi) / (1 + 1)
      Near (1 / 2 ^ 49) M 0 (min (c - t) (c + t)) ((lo.real + hi.real) / 2 - x * scale / 2) ∧
      Near (1 / 2 ^ 49) M 0 (max (c - t) (c + t)) ((lo.real + hi.real) / 2 + x * scale / 2) := by
    intro lo hi z x X hlo hhi hx0 hx2 hxs hX hz t c
    have tn := tiny x M hx0 hx2 hM
    have hη := ηR_pos
    have hxη : 0 ≤ x * ηR := mul_nonneg hx0 hη
    have uM : uR * M ≤ 1 / 1000 * M := mul_le_mul_of_nonneg_right uR_small hM0.le
    have hxs0 : 0 ≤ x * scale := mul_nonneg hx0 hsc0
    -- no overflow in the product
    have big := (fitScaledE (p := z.real * (min (frame.width / s.width) (frame.height / s.height)).real) uR_pos.le uR_small hη hx0 hsc0
      hz hscale (by rw [sub_self, abs_zero]; exact add_nonneg (mul_nonneg uR_pos.le (abs_nonneg _)) hη)).2
    have e2 : 2 * x * ηR = 2 * (x * ηR) := by ring
    have hp := (fitScaledE uR_pos.le uR_small hη hx0 hsc0 hz hscale
      (mul_ok z (min (frame.width / s.width) (frame.height / s.height)) (by
        rw [hQ]; linarith only [big, hxs, hX, e2, tn, uM, hM2, hη, hxη, hM0, hM', hNP', hPQ]))).1
    set p := z * min (frame.width / s.width) (frame.height / s.height) with hpdef
    have uxs : uR * (x * scale) ≤ 1 / 1000 * (x * scale) := mul_le_mul_of_nonneg_right uR_small hxs0
    have bp : |p.real| ≤ 3 * M := by
      have h1 := abs_sub_abs_le_abs_sub p.real (x * scale)
      rw [abs_of_nonneg hxs0] at h1
      have e7 : 7 * uR * (x * scale) = 7 * (uR * (x * scale)) := by ring
      linarith only [h1, hp, e7, uxs, hxs, hX, e2, tn, uM, hη, hxη, hM0]
    have ht := mul_ok p (1 / (1 + 1)) (by
      rw [real_half, hQ, abs_mul]
      have e : |(1 : ℝ) / 2| = 1 / 2 := by norm_num
      rw [e]
      linarith only [bp, hM', hNP', hPQ, hM0])
    rw [real_half, mul_one_div] at ht
    have bc : |(lo.real + hi.real) / 2| ≤ M := by
      rw [abs_div, abs_two]
      have := abs_add_le lo.real hi.real
      linarith only [this, hlo, hhi]
    have hc := boxMid_near (a := lo) (b := hi) (by rw [hP]; linarith only [hlo, hM', hNP']) (by rw [hP]; linarith only [hhi, hM', hNP'])
    have hc' : |c.real - (lo.real + hi.real) / 2| ≤ 3 * uR * M + 2 * ηR := by
      have h1 : |lo.real + hi.real| ≤ 2 * M := (abs_add_le _ _).trans (by linarith only [hlo, hhi])
      have h2 := mul_le_mul_of_nonneg_left h1 (show 0 ≤ 11 / 10 * uR from mul_nonneg (by norm_num) uR_pos.le)
      have h3 : 0 ≤ uR * M := mul_nonneg uR_pos.le hM0.le
      linarith only [hc, h2, h3]
    have bt : |t.real| ≤ 3 * M + 1 := by
      have h1 := abs_sub_abs_le_abs_sub t.real (p.real / 2)
      have e3 : |p.real / 2| = |p.real| / 2 := by rw [abs_div, abs_two]
      have h2 : uR * |p.real / 2| ≤ 1 / 1000 * |p.real / 2| := mul_le_mul_of_nonneg_right uR_small (abs_nonneg _)
      have h3 : |t.real - p.real / 2| ≤ uR * |p.real / 2| + ηR := ht
      have h4 : ηR ≤ 1 := by have := ηR_small; have := uR_small; linarith only [this, ηR_small, hη]
      rw [e3] at h1 h2 h3
      linarith only [h1, h2, h3, h4, bp, hM0]
    have bc' : |c.real| ≤ 2 * M + 1 := by
      have h1 := abs_sub_abs_le_abs_sub c.real ((lo.real + hi.real) / 2)
      have h4 : ηR ≤ 1 / 2 := by have := ηR_small; have := uR_small; linarith only [this, ηR_small, hη]
      linarith only [h1, hc', bc, uM, h4, hM0]
    have g : |c.real| + |t.real| ≤ Q := by linarith only [bt, bc', hM', hNP', hPQ, hN1]
    have n := fitE uR_pos.le uR_small hη hM0.le hx0 hsc0 (hxs.trans hX) bc tn hp ht hc'
      (sub_ok c t (by rw [hQ]; exact (abs_sub _ _).trans g)) (add_ok c t (by rw [hQ]; exact (abs_add_le _ _).trans g))
    have mn := boxMin_near n.1 n.2
    have o1 : (lo.real + hi.real) / 2 - x * scale / 2 ≤ (lo.real + hi.real) / 2 + x * scale / 2 := by linarith only [hxs0]
    rw [min_eq_left o1, max_eq_right o1] at mn
    unfold Near
    rw [real_min, real_max, u49, add_zero]
    exact mn
  have dx := dir frame.min.x frame.max.x s.width w W f1 f2 hw0.le hw2 ws hW2 dw
  have dy := dir frame.min.y frame.max.y s.height h H f3 f4 hh0.le hh2 hs' hH2 dh
  have nz : ∀ {z : Double} {x : ℝ}, 0 < x → |z.real - x| ≤ uR * x → (z == 0) = false := by
    intro z x hx hz
    rw [beq_eq_false_iff_ne]
    rintro rfl
    rw [real_zero, zero_sub, abs_neg, abs_of_pos hx] at hz
    have := mul_le_mul_of_nonneg_right uR_small hx.le
    linarith only [this, hz, hx]
  have run : frame.fitBox s = Box.fromCenter frame.center (s.width * min (frame.width / s.width) (frame.height / s.height))
      (s.height * min (frame.width / s.width) (frame.height / s.height)) := by
    unfold Box.fitBox pydiv
    simp only [nz hw0 dw, nz hh0 dh, bind, Except.bind, pm, Bool.false_eq_true, if_false]
  rw [run]
  unfold Box.fromCenter
  simp only [fromPoints_two]
  refine ⟨_, rfl, dx.1, dx.2, dy.1, dy.2, ?_, ?_, ?_, ?_⟩
  · have := (abs_le.mp dx.1).1
    simp only [Box.center] at this ⊢
    linarith only [this, ws]
  · have := (abs_le.mp dx.2).2
    simp only [Box.center] at this ⊢
    linarith only [this, ws]
  · have := (abs_le.mp dy.1).1
    simp only [Box.center] at this ⊢
    linarith only [this, hs']
  · have := (abs_le.mp dy.2).2
    simp only [Box.center] at this ⊢
    linarith only [this, hs']

/-! Concrete cases: the frame from (0, 0) to (10, 6), the box from (1, 1) to (3, 5), amounts (1, 2), a quarter turn with a
stretch by three. -/

def exFrame : Box Double := ⟨dvec 0 0, dvec 10 6⟩
def exShape : Box Double := ⟨dvec 1 1, dvec 3 5⟩
/-- The answer is this box. -/
def isBox (r : Py (Box Double)) (b : Box Double) : Bool :=
  match r with
  | .ok r => decide (r.min.x = b.min.x ∧ r.min.y = b.min.y ∧ r.max.x = b.max.x ∧ r.max.y = b.max.y)
  | .error _ => false
def exQuarter : Affine Double := ⟨0, dbl 3, dbl 10, dbl (-3), 0, dbl 20⟩

example : (0 : Double) ≤ (dvec 1 2).x ∧ (0 : Double) ≤ (dvec 1 2).y ∧ (0 : Double) < dbl (1 / 100000) ∧
    exQuarter.a = 0 ∧ exQuarter.e = 0 ∧ exShape.Encloses (dvec 2 (7 / 3)) ∧
    isBox (exShape.inflateV (dvec 1 2)) ⟨dvec (1 / 2) 0, dvec (7 / 2) 6⟩ = true ∧
    ¬ (exShape.min.x = exShape.max.x ∨ exShape.min.y = exShape.max.y) ∧
    (match exFrame.fitBox ⟨dvec 1 1, dvec 1 5⟩ with | .error .zeroDivisionError => true | _ => false) = true := by
  unfold Box.Encloses
  decide +kernel

example : (1 : ℝ) / 2 ^ 500 ≤ 10 ∧ (10 : ℝ) ≤ 2 ^ 500 ∧ exFrame.min.x ≤ exFrame.max.x ∧ exFrame.min.y ≤ exFrame.max.y ∧
    |exFrame.min.x.real| ≤ 10 ∧ |exFrame.max.x.real| ≤ 10 ∧ |exFrame.min.y.real| ≤ 10 ∧ |exFrame.max.y.real| ≤ 10 ∧
    |exShape.max.y.real| ≤ 2 ^ 500 ∧ |exShape.max.x.real| ≤ 2 ^ 500 ∧ |exShape.min.y.real| ≤ 2 ^ 500 ∧ |exShape.min.x.real| ≤ 2 ^ 500 ∧
    1 / 2 ^ 500 ≤ exShape.max.x.real - exShape.min.x.real ∧ 1 / 2 ^ 500 ≤ exShape.max.y.real - exShape.min.y.real ∧
    isBox (exFrame.fitBox exShape) ⟨dvec (7 / 2) 0, dvec (13 / 2) 6⟩ = true := by
  have n0 : (dbl 0).real = 0 := by simpa using dbl_int 0 (by norm_num)
  have n1 : (dbl 1).real = 1 := by simpa using dbl_int 1 (by norm_num)
  have n3 : (dbl 3).real = 3 := by simpa using dbl_int 3 (by norm_num)
  have n5 : (dbl 5).real = 5 := by simpa using dbl_int 5 (by norm_num)
  have n6 : (dbl 6).real = 6 := by simpa using dbl_int 6 (by norm_num)
  have n10 : (dbl 10).real = 10 := by simpa using dbl_int 10 (by norm_num)
  have hr : isBox (exFrame.fitBox exShape) ⟨dvec (7 / 2) 0, dvec (13 / 2) 6⟩ = true := by decide +kernel
  have h1 : (1 : ℝ) / 2 ^ 500 ≤ 1 / 2 ^ 0 := inv_pow_le (by norm_num)
  have h2 : (2 : ℝ) ^ 4 ≤ 2 ^ 500 := pow_le_real (by norm_num)
  rw [pow_zero] at h1
  have e4 : (2 : ℝ) ^ 4 = 16 := by norm_num
  have h3 : (16 : ℝ) ≤ 2 ^ 500 := e4 ▸ h2
  simp only [exFrame, exShape, dvec, n0, n1, n3, n5, n6, n10]
  generalize (1 : ℝ) / 2 ^ 500 = g at *
  generalize (2 : ℝ) ^ 500 = G at *
  refine ⟨by linarith, by linarith, ?_, ?_, ?_, ?_, ?_, ?_, ?_, ?_, ?_, ?_, ?_, ?_, hr⟩
  · rw [← real_le, n0, n10]; norm_num
  · rw [← real_le, n0, n6]; norm_num
  all_goals first | (norm_num; done) | (rw [abs_of_nonneg (by norm_num)]; linarith) | linarith

end Planar
