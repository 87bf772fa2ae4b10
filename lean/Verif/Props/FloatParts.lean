import Verif.Props.FloatParallel
/- Property C78: the ends and the middle of a segment, and the lines through rays and segments, in double precision. -/
set_option linter.unusedSectionVars false
namespace Planar
open Spec
variable [PyMath Double] [SqrtOk]

omit [PyMath Double] [SqrtOk] in
theorem half_d : ((1 / (1 + 1) : Double)).real = 1 / 2 := by
  have : (1 / (1 + 1) : Double).val = 1 / 2 := by decide +kernel
  rw [Fl.real, this]; norm_num

/-- A coordinate of the middle of a segment. -/
theorem mid_near_coord {A d L : Double} {c k M : ℝ} (hc : |c| ≤ 1) (hd : |d.real - c| ≤ 8 * uR * |c| + ηR) (hk : 0 ≤ k)
    (hkM : k ≤ 3 / 2 * M) (hL : |L.real - k| ≤ 31 / 10 * uR * k) (hA : |A.real| ≤ M) (hM : M ≤ 2 ^ 500) :
    |(A + d * (L * (1 / (1 + 1)))).real - (A.real + k * c / 2)| ≤ 30 * uR * M + 8 * θR := by
  have hu := uR_pos
  have hu' := uR_small
  have hη0 := ηR_pos
  have hηθ := ηR_θR
  have hθ := θR_pos
  have M0 : 0 ≤ M := (abs_nonneg _).trans hA
  have uk : 0 ≤ uR * k := mul_nonneg hu.le hk
  have uk1 : uR * k ≤ 1 / 1000 * k := mul_le_mul_of_nonneg_right hu' hk
  have ukM : uR * k ≤ uR * (3 / 2 * M) := mul_le_mul_of_nonneg_left hkM hu.le
  have uM : 0 ≤ uR * M := mul_nonneg hu.le M0
  have uM1 : uR * M ≤ 1 / 1000 * M := mul_le_mul_of_nonneg_right hu' M0
  have hLl := abs_le.mp hL
  have L0 : 0 ≤ L.real := by linarith
  have L1 : L.real ≤ 2 * M := by linarith
  have hH : |L.real * (1 / (1 + 1) : Double).real| = L.real / 2 := by
    rw [half_d, abs_of_nonneg (by linarith)]; ring
  have hP := mul_ok L (1 / (1 + 1)) (by rw [hH]; exact pow_room hM (by linarith) (by norm_num))
  rw [hH, half_d] at hP
  have uL : uR * L.real ≤ uR * (2 * M) := mul_le_mul_of_nonneg_left L1 hu.le
  have hPl := abs_le.mp hP
  have P0 : 0 ≤ (L * (1 / (1 + 1))).real := by
    have h0 : (0 : Double) ≤ L := by rw [← real_le, real_zero]; exact L0
    have h1 : (0 : Double) ≤ 1 / (1 + 1) := by rw [← real_le, real_zero, half_d]; norm_num
    have := f_mul_nonneg h0 h1
    rwa [← real_le, real_zero] at this
  have N1 : max M (4 * ηR) ≤ 2 ^ 500 := by
    refine max_le hM ?_
    have h1 : (1 : ℝ) ≤ 2 ^ 500 := one_le_pow₀ (by norm_num)
    have h2 := θR_one
    refine le_trans ?_ h1
    clear hM h1
    linarith
  have N2 : max M (4 * ηR) ≤ M + 4 * ηR := max_le (by linarith) (by linarith)
  have n1 := le_max_left M (4 * ηR)
  have n2 := le_max_right M (4 * ηR)
  have pM : (L * (1 / (1 + 1))).real ≤ 3 / 2 * max M (4 * ηR) := by
    have b1 := hPl.2
    generalize max M (4 * ηR) = X at n1 n2 ⊢
    generalize (L * (1 / (1 + 1))).real = P at b1 ⊢
    clear hM N1 hPl hP
    linarith
  have key := end_coord hc hd P0 pM (L := L * (1 / (1 + 1))) (by
    rw [sub_self, abs_zero]
    have := mul_nonneg hu.le P0
    linarith) (hA.trans n1) N1
  have hκ : |(L * (1 / (1 + 1))).real - k / 2| ≤ 31 / 20 * (uR * k) + uR * (2 * M) / 2 + ηR := by
    rw [abs_le]
    constructor <;> linarith
  have e2 : |(L * (1 / (1 + 1))).real * c - k * c / 2| ≤ 31 / 20 * (uR * k) + uR * (2 * M) / 2 + ηR := by
    rw [show (L * (1 / (1 + 1))).real * c - k * c / 2 = ((L * (1 / (1 + 1))).real - k / 2) * c by ring, abs_mul]
    exact (mul_le_of_le_one_right (abs_nonneg _) hc).trans hκ
  have t := abs_sub_le (A + d * (L * (1 / (1 + 1)))).real (A.real + (L * (1 / (1 + 1))).real * c) (A.real + k * c / 2)
  rw [show A.real + (L * (1 / (1 + 1))).real * c - (A.real + k * c / 2) = (L * (1 / (1 + 1))).real * c - k * c / 2 by ring] at t
  have uN : uR * max M (4 * ηR) ≤ uR * (M + 4 * ηR) := mul_le_mul_of_nonneg_left N2 hu.le
  have uη : uR * ηR ≤ 1 / 1000 * ηR := mul_le_mul_of_nonneg_right hu' hη0
  clear hM N1
  linarith

/-- A vector whose length is computed as zero is short. -/
theorem short_vec {v : Vec2 Double} {M : ℝ} (hM : M ≤ 2 ^ 500) (hv : Within M v) (h0 : v.length = 0) :
    vlen (toReal v) ≤ 3 * θR := by
  have h5 : (2 : ℝ) ^ 500 ≤ 2 ^ 510 := pow_le_real (by norm_num)
  have := length_double v (hv.1.trans (hM.trans h5)) (hv.2.trans (hM.trans h5))
  rw [h0, real_zero] at this
  have h1 := (abs_le.mp this).1
  have hr := Real.sqrt_nonneg (v.x.real * v.x.real + v.y.real * v.y.real)
  have h2 := mul_le_mul_of_nonneg_right uR_small hr
  have hθ := θR_pos
  clear h5 hM
  show √(v.x.real * v.x.real + v.y.real * v.y.real) ≤ _
  linarith

/-- **C78** The parts of `LineSegment(a, v)`: its anchor is `a` exactly, its end is `a + v` and its mid `a + v / 2` up
to `M / 2 ^ 48` (and `2 ^ -490`) in each coordinate, and its length that of `v`; `M` bounds the coordinates of `a` and `v`. -/
theorem C78_segment_parts (eps : Double) (he : 1 / 2 ^ 500 ≤ eps.real) (he1 : eps.real ≤ 1 / 2) (a v : Vec2 Double)
    (M : ℝ) (hM : M ≤ 2 ^ 500) (ha : Within M a) (hv : Within M v) (l : LineSegment Double)
    (h : LineSegment.new eps a v = .ok l) :
    l.anchor = a ∧
    CloseTo (M / 2 ^ 48 + 1 / 2 ^ 490) l.end' ⟨a.x.real + v.x.real, a.y.real + v.y.real⟩ ∧
    CloseTo (M / 2 ^ 48 + 1 / 2 ^ 490) l.mid ⟨a.x.real + v.x.real / 2, a.y.real + v.y.real / 2⟩ ∧
    |l.length.real - vlen (toReal v)| ≤ M / 2 ^ 48 + 1 / 2 ^ 490 := by
  have M0 : 0 ≤ M := (abs_nonneg _).trans ha.1
  have hfin : FiniteVec v := finite_within (hM.trans (pow_le_real (by norm_num))) hv
  obtain ⟨ha', hn, hl, hc⟩ := new_segment he he1 hfin h
  have hθ := θR_pos
  have sθ := slackθ
  have uM : 0 ≤ uR * M := mul_nonneg uR_pos.le M0
  have eM : M / 2 ^ 48 = 32 * (uR * M) := by unfold uR; ring
  have hend := end_near he he1 hM ha hv h
  rw [eM]
  refine ⟨ha', ⟨hend.1.trans (by linarith), hend.2.trans (by linarith)⟩, ?_, ?_⟩
  · rcases hc with ⟨h0, hd, hL⟩ | ⟨h0, hd⟩
    · have hcs := unit_of_div hd.pos
      have hc := unit_comp hcs
      have hs : |v.y.real / √(v.x.real * v.x.real + v.y.real * v.y.real)| ≤ 1 :=
        unit_comp (s := v.x.real / √(v.x.real * v.x.real + v.y.real * v.y.real)) (by linarith)
      have hvec := hd.vec.mono (k' := 8) (by norm_num)
      have ex := mid_near_coord hc hvec.1 hd.pos.le (norm_within hv.1 hv.2) (L := l.length) (by rw [hl]; exact hL) ha.1 hM
      have ey := mid_near_coord hs hvec.2 hd.pos.le (norm_within hv.1 hv.2) (L := l.length) (by rw [hl]; exact hL) ha.2 hM
      rw [mul_div_cancel₀ _ hd.pos.ne'] at ex ey
      have e : 30 * uR * M + 8 * θR ≤ 32 * (uR * M) + 1 / 2 ^ 490 := by clear hM he; linarith
      have hmid : l.mid = ⟨a.x + l.direction.x * (l.length * (1 / (1 + 1))), a.y + l.direction.y * (l.length * (1 / (1 + 1)))⟩ := by
        rw [← ha']; rfl
      rw [hmid]
      exact ⟨ex.trans e, ey.trans e⟩
    · have hmid : l.mid = a := by
        rw [← ha']
        simp only [LineSegment.mid, Vec2.smul, hl, h0, f_zero_mul]
        refine Vec2.ext ?_ ?_
        · show l.anchor.x + l.direction.x * 0 = _; rw [f_mul_zero, f_add_zero]
        · show l.anchor.y + l.direction.y * 0 = _; rw [f_mul_zero, f_add_zero]
      have hr := short_vec hM hv h0
      have vx : |v.x.real| ≤ vlen (toReal v) := abs_le_norm v.x.real v.y.real
      have vy : |v.y.real| ≤ vlen (toReal v) := by
        have := abs_le_norm v.y.real v.x.real
        rwa [add_comm] at this
      clear hM he
      rw [hmid]
      constructor
      · rw [show a.x.real - (a.x.real + v.x.real / 2) = -v.x.real / 2 by ring, abs_div, abs_neg, abs_of_pos (two_pos : (0 : ℝ) < 2)]
        linarith
      · rw [show a.y.real - (a.y.real + v.y.real / 2) = -v.y.real / 2 by ring, abs_div, abs_neg, abs_of_pos (two_pos : (0 : ℝ) < 2)]
        linarith
  · have h5 : (2 : ℝ) ^ 500 ≤ 2 ^ 510 := pow_le_real (by norm_num)
    have hx := length_double v (hv.1.trans (hM.trans h5)) (hv.2.trans (hM.trans h5))
    rw [hl]
    have hnw := mul_le_mul_of_nonneg_left (norm_within hv.1 hv.2) uR_pos.le
    clear h5 hM he
    refine hx.trans ?_
    linarith

/-- **C78** `Ray(a, v).line` is never an exception: it is the line through `a` along `v` (see `C78_parallel` for the bounds). -/
theorem C78_ray_line (eps : Double) (he : 1 / 2 ^ 500 ≤ eps.real) (he1 : eps.real ≤ 1 / 2) (a v : Vec2 Double)
    (hv : FiniteVec v) (r : Ray Double) (h : Ray.new eps a v = .ok r) :
    ∃ l', r.line eps = .ok l' ∧ CloseTo (1 / 2 ^ 48) l'.direction (dirOf (toReal v)) ∧
      l'.normal = ⟨l'.direction.y, -l'.direction.x⟩ ∧ l'.containsPoint eps a = true ∧
      ∀ (q : Vec2 Double) (M : ℝ), M ≤ 2 ^ 500 → Within M a → Within M q →
        |(l'.distanceTo q).real - signedDist (toReal a) (toReal v) (toReal q)| ≤ M / 2 ^ 45 + 1 / 2 ^ 490 := by
  obtain ⟨hd, -, ha⟩ := new_ray he he1 hv h
  have := line_along (V := toReal v) he he1 hd.pos (dir_6u hd) a
  rwa [← ha] at this ⊢

/-- **C78** `LineSegment(a, v).line` in the same way. If the length of `v` is computed as zero (which requires a length below
`2 ^ -490`) the line is that along the x-axis, for want of a direction. -/
theorem C78_segment_line (eps : Double) (he : 1 / 2 ^ 500 ≤ eps.real) (he1 : eps.real ≤ 1 / 2) (a v : Vec2 Double)
    (N : ℝ) (hN : N ≤ 2 ^ 500) (hv : Within N v) (s : LineSegment Double) (h : LineSegment.new eps a v = .ok s) :
    ∃ (l' : Line Double) (V : Vec2 ℝ), s.line eps = .ok l' ∧
      (s.length ≠ 0 ∧ V = toReal v ∨ s.length = 0 ∧ vlen (toReal v) ≤ 1 / 2 ^ 490 ∧ V = ⟨1, 0⟩) ∧
      CloseTo (1 / 2 ^ 48) l'.direction (dirOf V) ∧
      l'.normal = ⟨l'.direction.y, -l'.direction.x⟩ ∧ l'.containsPoint eps a = true ∧
      ∀ (q : Vec2 Double) (M : ℝ), M ≤ 2 ^ 500 → Within M a → Within M q →
        |(l'.distanceTo q).real - signedDist (toReal a) V (toReal q)| ≤ M / 2 ^ 45 + 1 / 2 ^ 490 := by
  have hfin : FiniteVec v := finite_within (hN.trans (pow_le_real (by norm_num))) hv
  obtain ⟨ha, -, hl, hc⟩ := new_segment he he1 hfin h
  have sθ := slackθ
  have hθ := θR_pos
  rcases hc with ⟨h0, hd, -⟩ | ⟨h0, hd⟩
  · obtain ⟨l', h1, h2⟩ := line_along (V := toReal v) he he1 hd.pos (dir_6u hd) a
    exact ⟨l', toReal v, by rw [← h1, LineSegment.line, ha], .inl ⟨by rw [hl]; exact h0, rfl⟩, h2⟩
  · have e1 : (toReal (⟨1, 0⟩ : Vec2 Double)) = ⟨1, 0⟩ := by simp only [toReal, real_one, real_zero]
    have hd' : NearDir (⟨1, 0⟩ : Vec2 Double).x.real (⟨1, 0⟩ : Vec2 Double).y.real s.direction := by
      rw [real_one, real_zero]; exact hd
    have h6 := dir_6u (v := ⟨1, 0⟩) hd'
    have hp : 0 < vlen (toReal (⟨1, 0⟩ : Vec2 Double)) := hd'.pos
    rw [e1] at h6 hp
    obtain ⟨l', h1, h2⟩ := line_along (V := ⟨1, 0⟩) he he1 hp h6 a
    refine ⟨l', ⟨1, 0⟩, by rw [← h1, LineSegment.line, ha], .inr ⟨by rw [hl]; exact h0, ?_, rfl⟩, h2⟩
    exact (short_vec hN hv h0).trans (by linarith)

/-- The segment from (1, 2) by (3, 4) exists, ends near (4, 6), has its middle near (2.5, 4), and its line and that of the
ray with the same parts contain (1, 2). -/
example : ∃ s r l m, LineSegment.new (dbl (1 / 100000)) (dvec 1 2) (dvec 3 4) = .ok s ∧
    CloseTo (4 / 2 ^ 48 + 1 / 2 ^ 490) s.end' ⟨4, 6⟩ ∧ CloseTo (4 / 2 ^ 48 + 1 / 2 ^ 490) s.mid ⟨5 / 2, 4⟩ ∧
    |s.length.real - 5| ≤ 4 / 2 ^ 48 + 1 / 2 ^ 490 ∧
    Ray.new (dbl (1 / 100000)) (dvec 1 2) (dvec 3 4) = .ok r ∧ r.line (dbl (1 / 100000)) = .ok l ∧
    l.containsPoint (dbl (1 / 100000)) (dvec 1 2) = true ∧ s.line (dbl (1 / 100000)) = .ok m ∧
    m.containsPoint (dbl (1 / 100000)) (dvec 1 2) = true := by
  have n1 : (dbl 1).real = 1 := by simpa using dbl_int 1 (by norm_num)
  have n2 : (dbl 2).real = 2 := by simpa using dbl_int 2 (by norm_num)
  have n3 : (dbl 3).real = 3 := by simpa using dbl_int 3 (by norm_num)
  have n4 : (dbl 4).real = 4 := by simpa using dbl_int 4 (by norm_num)
  obtain ⟨h1, h2⟩ := dbl_eps
  have l5 : vlen (toReal (dvec 3 4)) = 5 := by
    rw [vlen_def]; simp only [dvec, n3, n4]
    rw [show (3 : ℝ) * 3 + 4 * 4 = 5 * 5 by norm_num, Real.sqrt_mul_self (by norm_num)]
  have he : 1 / 2 ^ 500 ≤ (dbl (1 / 100000)).real := (inv_pow_le (show 17 ≤ 500 by norm_num)).trans h1
  have he1 : (dbl (1 / 100000)).real ≤ 1 / 2 := h2.trans (by norm_num)
  have p7 : (8 : ℝ) ≤ 2 ^ 510 := by
    calc (8 : ℝ) = 2 ^ 3 := by norm_num
      _ ≤ 2 ^ 510 := pow_le_real (by norm_num)
  have p4 : (4 : ℝ) ≤ 2 ^ 500 := by
    calc (4 : ℝ) = 2 ^ 2 := by norm_num
      _ ≤ 2 ^ 500 := pow_le_real (by norm_num)
  have wa : Within 4 (dvec 1 2) := by
    constructor
    · show |(dbl 1).real| ≤ 4; rw [n1]; norm_num
    · show |(dbl 2).real| ≤ 4; rw [n2]; norm_num
  have wv : Within 4 (dvec 3 4) := by
    constructor
    · show |(dbl 3).real| ≤ 4; rw [n3]; norm_num
    · show |(dbl 4).real| ≤ 4; rw [n4]; norm_num
  have hf : FiniteVec (dvec 3 4) := finite_within (p4.trans (pow_le_real (by norm_num))) wv
  obtain ⟨-, ⟨r, hr⟩, ⟨s, hs⟩⟩ := (C78_constructors _ he he1 (dvec 1 2) (dvec 3 4) hf).1
    (by rw [l5]; clear he; norm_num at *; linarith) (by rw [l5]; refine le_trans ?_ p7; norm_num)
  obtain ⟨-, g1, g2, g3⟩ := C78_segment_parts _ he he1 _ _ 4 p4 wa wv s hs
  obtain ⟨l, hl, -, -, hl', -⟩ := C78_ray_line _ he he1 _ _ hf r hr
  obtain ⟨m, V, hm, -, -, -, hm', -⟩ := C78_segment_line _ he he1 _ _ 4 p4 wv s hs
  refine ⟨s, r, l, m, hs, ?_, ?_, ?_, hr, hl, hl', hm, hm'⟩
  · have e : (⟨(dvec 1 2).x.real + (dvec 3 4).x.real, (dvec 1 2).y.real + (dvec 3 4).y.real⟩ : Vec2 ℝ) = ⟨4, 6⟩ := by
      simp only [dvec, n1, n2, n3, n4]; norm_num
    rw [← e]; exact g1
  · have e : (⟨(dvec 1 2).x.real + (dvec 3 4).x.real / 2, (dvec 1 2).y.real + (dvec 3 4).y.real / 2⟩ : Vec2 ℝ) = ⟨5 / 2, 4⟩ := by
      simp only [dvec, n1, n2, n3, n4]; norm_num
    rw [← e]; exact g2
  · rw [← l5]; exact g3

end Planar
