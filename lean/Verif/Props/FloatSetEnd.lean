import Verif.Props.FloatSides
/- Property C78: assigning `vector` and `end` of a segment in double precision. -/
set_option linter.unusedSectionVars false
namespace Planar
open Spec
variable [PyMath Double] [SqrtOk]

omit [SqrtOk] in
/-- What an assignment of `direction` does depends on the old state only in what it keeps when it fails. -/
theorem setDirection_any {eps : Double} (t u : Lin Double) (w : Vec2 Double) :
    (∃ x, t.setDirection eps w = (.error x, t) ∧ u.setDirection eps w = (.error x, u)) ∨
    ∃ r, t.setDirection eps w = (.ok (), r) ∧ u.setDirection eps w = (.ok (), r) := by
  simp only [Lin.setDirection]
  rcases w.copy.normalized eps with x | n
  · exact .inl ⟨x, rfl, rfl⟩
  · by_cases h : n.isNull eps
    · simp only [h, if_true]
      exact .inl ⟨_, rfl, rfl⟩
    · simp only [h, if_false]
      exact .inr ⟨_, rfl, rfl⟩

/-- A successful assignment of `vector` makes the segment that the constructor would make. -/
theorem setVector_as_new {eps : Double} (s : LineSegment Double) (w : Vec2 Double) :
    ((s.setVector eps w).1 = .ok () → LineSegment.new eps s.anchor w = .ok (s.setVector eps w).2) ∧
    (∀ x, (s.setVector eps w).1 = .error x → (s.setVector eps w).2 = s) := by
  have key : ∀ d : Vec2 Double, (∀ t : LineSegment Double, t.setVector eps w = match t.toLin.setDirection eps d with
      | (.error e, l) => (.error e, { t with toLin := l })
      | (.ok _, l) => (.ok (), { t with toLin := l, length := w.length })) →
      ((s.setVector eps w).1 = .ok () → LineSegment.new eps s.anchor w = .ok (s.setVector eps w).2) ∧
      (∀ x, (s.setVector eps w).1 = .error x → (s.setVector eps w).2 = s) := by
    intro d h
    simp only [LineSegment.new, h]
    rcases setDirection_any (eps := eps) s.toLin ⟨w, w⟩ d with ⟨x, h1, h2⟩ | ⟨r, h1, h2⟩
    · rw [h1]
      exact ⟨fun h => by simp at h, fun _ _ => rfl⟩
    · rw [h1, h2]
      exact ⟨fun _ => by simp only [Vec2.copy_fl], fun x h => by simp at h⟩
  by_cases h0 : w.length = 0
  · refine key ⟨1, 0⟩ fun t => ?_
    have hb : (w.length != 0) = false := by rw [h0]; simp
    simp only [LineSegment.setVector, Vec2.copy_fl, hb, Bool.false_eq_true, if_false]
    rcases t.toLin.setDirection eps ⟨1, 0⟩ with ⟨x | u, l⟩ <;> rfl
  · refine key w fun t => ?_
    have hb : (w.length != 0) = true := by simp [h0]
    simp only [LineSegment.setVector, Vec2.copy_fl, hb, if_true]
    rcases t.toLin.setDirection eps w with ⟨x | u, l⟩ <;> rfl

/-- It raises nothing but ValueError. -/
theorem setVector_err {eps : Double} (he : 1 / 2 ^ 500 ≤ eps.real) (he1 : eps.real ≤ 1 / 2) (s : LineSegment Double)
    {w : Vec2 Double} (hw : FiniteVec w) {x : PyErr} (h : (s.setVector eps w).1 = .error x) : x = .valueError := by
  have h1f : FiniteVec (⟨1, 0⟩ : Vec2 Double) := by
    constructor
    · exact finite_of (M := 2 ^ 1) (pow_lt_real (by norm_num)) (by rw [real_one]; norm_num)
    · exact finite_of (M := 2 ^ 1) (pow_lt_real (by norm_num)) (by rw [real_zero]; norm_num)
  by_cases h0 : w.length = 0
  · have hb : (w.length != 0) = false := by rw [h0]; simp
    simp only [LineSegment.setVector, Vec2.copy_fl, hb, Bool.false_eq_true, if_false] at h
    rcases (C78_direction eps he he1 s.toLin ⟨1, 0⟩ h1f).1 with e | ⟨r, e, -⟩
    · rw [e] at h; cases h; rfl
    · rw [e] at h; cases h
  · have hb : (w.length != 0) = true := by simp [h0]
    simp only [LineSegment.setVector, Vec2.copy_fl, hb, if_true] at h
    rcases (C78_direction eps he he1 s.toLin w hw).1 with e | ⟨r, e, -⟩
    · rw [e] at h; cases h; rfl
    · rw [e] at h; cases h

/-- **C78** Assigning `vector` to a segment in any state: ValueError and no change at all, or the segment with the same anchor whose `vector` is the given one up to `M / 2 ^ 47`. -/
theorem C78_segment_set_vector (eps : Double) (he : 1 / 2 ^ 500 ≤ eps.real) (he1 : eps.real ≤ 1 / 2) (s : LineSegment Double)
    (v : Vec2 Double) (M : ℝ) (hM : M ≤ 2 ^ 500) (hv : Within M v) :
    s.setVector eps v = (.error .valueError, s) ∨
    ∃ s', s.setVector eps v = (.ok (), s') ∧ s'.anchor = s.anchor ∧
      CloseTo (M / 2 ^ 47 + 1 / 2 ^ 490) s'.vector (toReal v) := by
  obtain ⟨h1, h2⟩ := setVector_as_new (eps := eps) s v
  rcases hx : (s.setVector eps v).1 with x | u
  · left
    rw [← setVector_err he he1 s (finite_within (hM.trans (pow_le_real (by norm_num))) hv) hx, ← hx]
    exact Prod.ext rfl (h2 x hx)
  · right
    have hnew := h1 hx
    refine ⟨(s.setVector eps v).2, by rw [← hx], ?_, ?_⟩
    · exact (new_segment he he1 (finite_within (hM.trans (pow_le_real (by norm_num))) hv) hnew).1
    · have hfin : FiniteVec v := finite_within (hM.trans (pow_le_real (by norm_num))) hv
      obtain ⟨-, -, hl, hc⟩ := new_segment he he1 hfin hnew
      generalize (s.setVector eps v).2 = l at *
      have M0 : 0 ≤ M := (abs_nonneg _).trans hv.1
      have hθ := θR_pos
      have sθ := slackθ
      have hηθ := ηR_θR
      have hη0 := ηR_pos
      have uM : 0 ≤ uR * M := mul_nonneg uR_pos.le M0
      have eM : M / 2 ^ 47 = 64 * (uR * M) := by unfold uR; ring
      have z0 : |(0 : Double).real| ≤ M := by rw [real_zero, abs_zero]; exact M0
      rw [eM]
      rcases hc with ⟨h0, hd, hL⟩ | ⟨h0, hd⟩
      · have hcs := unit_of_div hd.pos
        have hc := unit_comp hcs
        have hs : |v.y.real / √(v.x.real * v.x.real + v.y.real * v.y.real)| ≤ 1 :=
          unit_comp (s := v.x.real / √(v.x.real * v.x.real + v.y.real * v.y.real)) (by linarith)
        have hvec := hd.vec.mono (k' := 8) (by norm_num)
        have ex := end_coord hc hvec.1 hd.pos.le (norm_within hv.1 hv.2) (L := l.length) (by rw [hl]; exact hL) z0 hM
        have ey := end_coord hs hvec.2 hd.pos.le (norm_within hv.1 hv.2) (L := l.length) (by rw [hl]; exact hL) z0 hM
        rw [mul_div_cancel₀ _ hd.pos.ne', f_zero_add, real_zero, zero_add] at ex ey
        have g : 22 * uR * M + 4 * ηR ≤ 64 * (uR * M) + 1 / 2 ^ 490 := by clear hM he eM; linarith
        exact ⟨ex.trans g, ey.trans g⟩
      · have hend : l.vector = ⟨0, 0⟩ := by
          simp only [LineSegment.vector, Vec2.smul, hl, h0]
          refine Vec2.ext ?_ ?_
          · show l.direction.x * 0 = _; rw [f_mul_zero]
          · show l.direction.y * 0 = _; rw [f_mul_zero]
        have hr := short_vec hM hv h0
        have vx : |v.x.real| ≤ vlen (toReal v) := abs_le_norm v.x.real v.y.real
        have vy : |v.y.real| ≤ vlen (toReal v) := by
          have := abs_le_norm v.y.real v.x.real
          rwa [add_comm] at this
        clear hM he eM
        rw [hend]
        constructor
        · show |(0 : Double).real - v.x.real| ≤ _
          rw [real_zero, zero_sub, abs_neg]; linarith
        · show |(0 : Double).real - v.y.real| ≤ _
          rw [real_zero, zero_sub, abs_neg]; linarith

/-- **C78** Assigning `end` to a segment in any state, with `M` a bound for the coordinates of its anchor and of the new end:
ValueError and no change at all, or the segment with the same anchor whose `end` is the given point up to `M / 2 ^ 46`. -/
theorem C78_segment_set_end (eps : Double) (he : 1 / 2 ^ 500 ≤ eps.real) (he1 : eps.real ≤ 1 / 2) (s : LineSegment Double)
    (e : Vec2 Double) (M : ℝ) (hM : M ≤ 2 ^ 498) (ha : Within M s.anchor) (hv : Within M e) :
    s.setEnd eps e = (.error .valueError, s) ∨
    ∃ s', s.setEnd eps e = (.ok (), s') ∧ s'.anchor = s.anchor ∧
      CloseTo (M / 2 ^ 46 + 1 / 2 ^ 490) s'.end' (toReal e) := by
  have M0 : 0 ≤ M := (abs_nonneg _).trans ha.1
  have hdef : s.setEnd eps e = s.setVector eps (e - s.anchor) := by simp only [LineSegment.setEnd, Vec2.copy_fl]
  have M3 : 3 * M ≤ 2 ^ 500 := by
    have e : (2 : ℝ) ^ 500 = 4 * 2 ^ 498 := by rw [show (500 : ℕ) = 2 + 498 by norm_num, pow_add]; norm_num
    rw [e]
    clear he e
    generalize (2 : ℝ) ^ 498 = T at *
    linarith
  have hu := uR_pos
  have hu' := uR_small
  have one : ∀ {x y : Double}, |x.real| ≤ M → |y.real| ≤ M →
      |(x - y).real - (x.real - y.real)| ≤ 2 * (uR * M) ∧ |(x - y).real| ≤ 3 * M := by
    intro x y hx hy
    have d : |x.real - y.real| ≤ 2 * M := (abs_sub _ _).trans (by clear hM M3; linarith)
    have e := sub_ok x y (pow_room M3 (d.trans (by clear hM M3; linarith)) (by norm_num))
    have ud := mul_le_mul_of_nonneg_left d hu.le
    have uM' : uR * M ≤ 1 / 1000 * M := mul_le_mul_of_nonneg_right hu' M0
    have t := abs_sub_abs_le_abs_sub (x - y).real (x.real - y.real)
    clear hM M3
    exact ⟨by linarith, by linarith⟩
  obtain ⟨x1, x2⟩ := one hv.1 ha.1
  obtain ⟨y1, y2⟩ := one hv.2 ha.2
  have hw : Within (3 * M) (e - s.anchor) := ⟨x2, y2⟩
  have ha3 : Within (3 * M) s.anchor := ⟨ha.1.trans (by clear hM M3; linarith), ha.2.trans (by clear hM M3; linarith)⟩
  rw [hdef]
  obtain ⟨h1, h2⟩ := setVector_as_new (eps := eps) s (e - s.anchor)
  rcases hx : (s.setVector eps (e - s.anchor)).1 with x | u
  · left
    rw [← setVector_err he he1 s (finite_within (M3.trans (pow_le_real (by norm_num))) hw) hx, ← hx]
    exact Prod.ext rfl (h2 x hx)
  · right
    have hnew := h1 hx
    refine ⟨(s.setVector eps (e - s.anchor)).2, by rw [← hx],
      (new_segment he he1 (finite_within (M3.trans (pow_le_real (by norm_num))) hw) hnew).1, ?_⟩
    obtain ⟨e1, e2⟩ := end_near he he1 M3 ha3 hw hnew
    generalize (s.setVector eps (e - s.anchor)).2 = l at *
    have hθ := θR_pos
    have sθ := slackθ
    have uM : 0 ≤ uR * M := mul_nonneg uR_pos.le M0
    have eM : M / 2 ^ 46 = 128 * (uR * M) := by unfold uR; ring
    rw [eM]
    have tx := abs_sub_le l.end'.x.real (s.anchor.x.real + (e - s.anchor).x.real) e.x.real
    have ty := abs_sub_le l.end'.y.real (s.anchor.y.real + (e - s.anchor).y.real) e.y.real
    change |(e - s.anchor).x.real - _| ≤ _ at x1
    change |(e - s.anchor).y.real - _| ≤ _ at y1
    rw [show s.anchor.x.real + (e - s.anchor).x.real - e.x.real = (e - s.anchor).x.real - (e.x.real - s.anchor.x.real) by ring] at tx
    rw [show s.anchor.y.real + (e - s.anchor).y.real - e.y.real = (e - s.anchor).y.real - (e.y.real - s.anchor.y.real) by ring] at ty
    simp only at e1 e2
    clear hM M3 he eM
    refine ⟨?_, ?_⟩
    · show |l.end'.x.real - e.x.real| ≤ _
      linarith
    · show |l.end'.y.real - e.y.real| ≤ _
      linarith

/-- Moving the end of the segment from (0, 0) by (3, 4) to (6, 8) works. -/
example : ∃ s s', LineSegment.new (dbl (1 / 100000)) (dvec 0 0) (dvec 3 4) = .ok s ∧
    s.setEnd (dbl (1 / 100000)) (dvec 6 8) = (.ok (), s') ∧ s'.anchor = dvec 0 0 ∧
    CloseTo (8 / 2 ^ 46 + 1 / 2 ^ 490) s'.end' ⟨6, 8⟩ := by
  have n0 : (dbl 0).real = 0 := by simpa using dbl_int 0 (by norm_num)
  have n3 : (dbl 3).real = 3 := by simpa using dbl_int 3 (by norm_num)
  have n4 : (dbl 4).real = 4 := by simpa using dbl_int 4 (by norm_num)
  have n6 : (dbl 6).real = 6 := by simpa using dbl_int 6 (by norm_num)
  have n8 : (dbl 8).real = 8 := by simpa using dbl_int 8 (by norm_num)
  obtain ⟨h1, h2⟩ := dbl_eps
  have l5 : vlen (toReal (dvec 3 4)) = 5 := by
    rw [vlen_def]; simp only [dvec, n3, n4]
    rw [show (3 : ℝ) * 3 + 4 * 4 = 5 * 5 by norm_num, Real.sqrt_mul_self (by norm_num)]
  have he : 1 / 2 ^ 500 ≤ (dbl (1 / 100000)).real := (inv_pow_le (show 17 ≤ 500 by norm_num)).trans h1
  have he1 : (dbl (1 / 100000)).real ≤ 1 / 2 := h2.trans (by norm_num)
  have p7 : (8 : ℝ) ≤ 2 ^ 510 := by
    calc (8 : ℝ) = 2 ^ 3 := by norm_num
      _ ≤ 2 ^ 510 := pow_le_real (by norm_num)
  have p8 : (8 : ℝ) ≤ 2 ^ 498 := by
    calc (8 : ℝ) = 2 ^ 3 := by norm_num
      _ ≤ 2 ^ 498 := pow_le_real (by norm_num)
  have w : ∀ x y : ℚ, |(dbl x).real| ≤ 8 → |(dbl y).real| ≤ 8 → Within 8 (dvec x y) := fun _ _ hx hy => ⟨hx, hy⟩
  have w0 := w 0 0 (by rw [n0]; norm_num) (by rw [n0]; norm_num)
  have wv := w 3 4 (by rw [n3]; norm_num) (by rw [n4]; norm_num)
  have we := w 6 8 (by rw [n6]; norm_num) (by rw [n8]; norm_num)
  have hf : FiniteVec (dvec 3 4) := finite_within (p8.trans (pow_le_real (by norm_num))) wv
  have h68 : (dvec 6 8 : Vec2 Double) - dvec 0 0 = dvec 6 8 := by
    have z : dbl 0 = 0 := by
      have := n0
      rw [← real_zero] at this
      exact le_antisymm (by rw [← real_le, this]) (by rw [← real_le, this])
    refine Vec2.ext ?_ ?_
    · show dbl 6 - dbl 0 = dbl 6; rw [z, f_sub_zero]
    · show dbl 8 - dbl 0 = dbl 8; rw [z, f_sub_zero]
  obtain ⟨-, -, s, hs⟩ := (C78_constructors _ he he1 (dvec 0 0) (dvec 3 4) hf).1
    (by rw [l5]; clear he; norm_num at *; linarith) (by rw [l5]; refine le_trans ?_ p7; norm_num)
  have hsa := (new_segment he he1 hf hs).1
  rcases C78_segment_set_end _ he he1 s (dvec 6 8) 8 p8 (by rw [hsa]; exact w0) we with h | ⟨s', h, ha, hc⟩
  · exfalso
    have l10 : vlen (toReal (dvec 6 8)) = 10 := by
      rw [vlen_def]; simp only [dvec, n6, n8]
      rw [show (6 : ℝ) * 6 + 8 * 8 = 10 * 10 by norm_num, Real.sqrt_mul_self (by norm_num)]
    have hf8 : FiniteVec (dvec 6 8) := finite_within (p8.trans (pow_le_real (by norm_num))) we
    have p10 : (10 : ℝ) ≤ 2 ^ 510 := by
      calc (10 : ℝ) ≤ 2 ^ 4 := by norm_num
        _ ≤ 2 ^ 510 := pow_le_real (by norm_num)
    obtain ⟨r, hr, -⟩ := (C78_direction _ he he1 s.toLin (dvec 6 8) hf8).2.2.1
      (by rw [l10]; clear he; norm_num at *; linarith) (by rw [l10]; exact p10)
    have hlen : (dvec 6 8).length ≠ 0 := by
      intro h0
      have := short_vec (p8.trans (pow_le_real (by norm_num))) we h0
      rw [l10] at this
      have t := θR_one
      clear he p7 p8 p10
      linarith
    have hb : ((dvec 6 8).length != 0) = true := by simp [hlen]
    simp only [LineSegment.setEnd, Vec2.copy_fl, hsa, h68, LineSegment.setVector, hb, if_true, hr] at h
    cases h
  · refine ⟨s, s', hs, h, by rw [ha, hsa], ?_⟩
    have e : toReal (dvec 6 8) = ⟨6, 8⟩ := by simp only [toReal, dvec, n6, n8]
    rw [← e]; exact hc

end Planar
