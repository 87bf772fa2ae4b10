import Verif.Props.FloatParts
/- Property C78: `from_normal` of lines and segments in double precision. -/
set_option linter.unusedSectionVars false
namespace Planar
open Spec
variable [PyMath Double] [SqrtOk]

/-- What `_LinearGeometry.__new__` followed by an assignment of `normal` makes. -/
theorem ofNormal_near {eps : Double} (he : 1 / 2 ^ 500 ≤ eps.real) (he1 : eps.real ≤ 1 / 2) {n : Vec2 Double}
    (hn : FiniteVec n) :
    (Lin.ofNormal eps n = .error .valueError ∨
      ∃ m, NearDir n.x.real n.y.real m ∧ Lin.ofNormal eps n = .ok ⟨⟨-m.y, m.x⟩, m⟩) ∧
    (vlen (toReal n) ≤ eps.real * (1 - 1 / 2 ^ 50) → Lin.ofNormal eps n = .error .valueError) ∧
    (eps.real * (1 + 1 / 2 ^ 50) ≤ vlen (toReal n) → vlen (toReal n) ≤ 2 ^ 510 → ∃ l, Lin.ofNormal eps n = .ok l) := by
  obtain ⟨-, c2, c3, -⟩ := C78_normal eps he he1 ⟨n, n⟩ n hn
  refine ⟨?_, fun h => ?_, fun h h' => ?_⟩
  · rcases setNormal_cases eps ⟨n, n⟩ n hn he he1 with ⟨h1, -⟩ | ⟨-, -, -, m, hd, hm⟩
    · left; simp only [Lin.ofNormal, h1]
    · right; exact ⟨m, hd, by simp only [Lin.ofNormal, hm]⟩
  · simp only [Lin.ofNormal, c2 h]
  · obtain ⟨s', hs, -⟩ := c3 h h'
    exact ⟨s', by simp only [Lin.ofNormal, hs]⟩

/-- A coordinate of a point along a unit vector. -/
theorem along_coord {d o : Double} {c M : ℝ} (hc : |c| ≤ 1) (hd : |d.real - c| ≤ 8 * uR * |c| + ηR) (ho : |o.real| ≤ M)
    (hM : M ≤ 2 ^ 500) : |(d * o).real - c * o.real| ≤ 11 * uR * M + ηR ∧ |(d * o).real| ≤ 2 * M + ηR := by
  have hu := uR_pos
  have hu' := uR_small
  have hη := ηR_small
  have hη0 := ηR_pos
  have M0 : 0 ≤ M := (abs_nonneg _).trans ho
  have uM : 0 ≤ uR * M := mul_nonneg hu.le M0
  have uM' : uR * M ≤ 1 / 1000 * M := mul_le_mul_of_nonneg_right hu' M0
  have uc : uR * |c| ≤ uR * 1 := mul_le_mul_of_nonneg_left hc hu.le
  have e1 : |d.real * o.real - c * o.real| ≤ 9 * uR * M := by
    rw [← sub_mul, abs_mul]
    calc |d.real - c| * |o.real| ≤ (9 * uR) * M := mul_le_mul (by linarith) ho (abs_nonneg _) (by linarith)
      _ = 9 * uR * M := rfl
  have b0 : |c * o.real| ≤ M := by
    rw [abs_mul]; exact (mul_le_of_le_one_left (abs_nonneg _) hc).trans ho
  have b1 : |d.real * o.real| ≤ 101 / 100 * M := by
    have := abs_sub_abs_le_abs_sub (d.real * o.real) (c * o.real); linarith
  have hG := mul_ok d o (pow_room hM (b1.trans (by linarith)) (by norm_num))
  have ub : uR * |d.real * o.real| ≤ uR * (101 / 100 * M) := mul_le_mul_of_nonneg_left b1 hu.le
  have t := abs_sub_le (d * o).real (d.real * o.real) (c * o.real)
  have e2 : |(d * o).real - c * o.real| ≤ 11 * uR * M + ηR := by
    clear hM
    linarith
  refine ⟨e2, ?_⟩
  have := abs_sub_abs_le_abs_sub (d * o).real (c * o.real)
  clear hM
  linarith

/-- The sum of two such coordinates. -/
theorem along_sum {d o d' o' : Double} {c c' M : ℝ} (hc : |c| ≤ 1) (hd : |d.real - c| ≤ 8 * uR * |c| + ηR) (ho : |o.real| ≤ M)
    (hc' : |c'| ≤ 1) (hd' : |d'.real - c'| ≤ 8 * uR * |c'| + ηR) (ho' : |o'.real| ≤ M) (hM : M ≤ 2 ^ 500) :
    |(d * o + d' * o').real - (c * o.real + c' * o'.real)| ≤ 28 * uR * M + 4 * ηR := by
  obtain ⟨e1, b1⟩ := along_coord hc hd ho hM
  obtain ⟨e2, b2⟩ := along_coord hc' hd' ho' hM
  have hu := uR_pos
  have hη0 := ηR_pos
  have hη := ηR_small
  have hu' := uR_small
  have M0 : 0 ≤ M := (abs_nonneg _).trans ho
  have uM : 0 ≤ uR * M := mul_nonneg hu.le M0
  have b : |(d * o).real + (d' * o').real| ≤ 4 * M + 2 * ηR := (abs_add_le _ _).trans (by clear hM; linarith)
  have hS := add_ok (d * o) (d' * o') (pow_room hM (b.trans (by clear hM; linarith)) (by norm_num))
  have ub : uR * |(d * o).real + (d' * o').real| ≤ uR * (4 * M + 2 * ηR) := mul_le_mul_of_nonneg_left b hu.le
  have uη : uR * ηR ≤ 1 / 1000 * ηR := mul_le_mul_of_nonneg_right hu' hη0
  have t := abs_sub_le (d * o + d' * o').real ((d * o).real + (d' * o').real) (c * o.real + c' * o'.real)
  have t2 := abs_add_le ((d * o).real - c * o.real) ((d' * o').real - c' * o'.real)
  rw [show (d * o).real - c * o.real + ((d' * o').real - c' * o'.real) =
    (d * o).real + (d' * o').real - (c * o.real + c' * o'.real) by ring] at t2
  clear hM
  linarith

/-- **C78** `Line.from_normal(n, o)` raises ValueError for a normal shorter than EPSILON and, up to `2 ^ 510`, makes a line for a
longer one (relative `2 ^ -50`); nothing else can happen. The line has the unit vector along `n` as its normal, and the
distances it computes are those from the exact line (`o` away from the origin along `n`) up to `M / 2 ^ 46`, so its sides are
right up to that margin; `M` bounds `o` and the coordinates of the point. -/
theorem C78_line_from_normal (eps : Double) (he : 1 / 2 ^ 500 ≤ eps.real) (he1 : eps.real ≤ 1 / 2) (n : Vec2 Double)
    (hn : FiniteVec n) (o : Double) :
    (Line.fromNormal eps n o = .error .valueError ∨ ∃ l, Line.fromNormal eps n o = .ok l ∧
      CloseDir (toReal n) (toReal l.normal) ∧ l.direction = ⟨-l.normal.y, l.normal.x⟩ ∧
      ∀ (p : Vec2 Double) (M : ℝ), M ≤ 2 ^ 500 → |o.real| ≤ M → Within M p →
        |(l.distanceTo p).real - ((p.x.real * n.x.real + p.y.real * n.y.real) / vlen (toReal n) - o.real)| ≤
          M / 2 ^ 46 + 1 / 2 ^ 490 ∧
        (eps.real + (M / 2 ^ 46 + 1 / 2 ^ 490) ≤ (p.x.real * n.x.real + p.y.real * n.y.real) / vlen (toReal n) - o.real →
          l.pointRight eps p = true ∧ l.pointLeft eps p = false ∧ l.containsPoint eps p = false) ∧
        ((p.x.real * n.x.real + p.y.real * n.y.real) / vlen (toReal n) - o.real ≤ -(eps.real + (M / 2 ^ 46 + 1 / 2 ^ 490)) →
          l.pointLeft eps p = true ∧ l.pointRight eps p = false ∧ l.containsPoint eps p = false) ∧
        (|(p.x.real * n.x.real + p.y.real * n.y.real) / vlen (toReal n) - o.real| < eps.real - (M / 2 ^ 46 + 1 / 2 ^ 490) →
          l.containsPoint eps p = true ∧ l.pointLeft eps p = false ∧ l.pointRight eps p = false)) ∧
    (vlen (toReal n) ≤ eps.real * (1 - 1 / 2 ^ 50) → Line.fromNormal eps n o = .error .valueError) ∧
    (eps.real * (1 + 1 / 2 ^ 50) ≤ vlen (toReal n) → vlen (toReal n) ≤ 2 ^ 510 → ∃ l, Line.fromNormal eps n o = .ok l) := by
  obtain ⟨c1, c2, c3⟩ := ofNormal_near he he1 hn
  refine ⟨?_, fun h => ?_, fun h h' => ?_⟩
  · rcases c1 with h | ⟨m, hd, h⟩
    · left; simp only [Line.fromNormal, h, bind, Except.bind]
    · right
      refine ⟨⟨⟨⟨-m.y, m.x⟩, m⟩, o⟩, by simp only [Line.fromNormal, h, bind, Except.bind, pure, Except.pure, f_mul_one],
        (near_of hd).2, rfl, fun p M hM ho hp => ?_⟩
      have hcs := hd.unit
      have hv := hd.vec.mono (k' := 8) (by norm_num)
      have hM2 : M ≤ 2 ^ 1000 := hM.trans (pow_le_real (by norm_num))
      have dp := dot_double hcs (rel_self p.x.real) (rel_self p.y.real) hv (hp.1.trans hM2) (hp.2.trans hM2)
      have np := norm_within hp.1 hp.2
      have cp := (abs_add_le (p.x.real * _) (p.y.real * _)).trans (unit_dot_le (x := p.x.real) (y := p.y.real) hcs)
      have e : p.x.real * (n.x.real / √(n.x.real * n.x.real + n.y.real * n.y.real)) +
          p.y.real * (n.y.real / √(n.x.real * n.x.real + n.y.real * n.y.real)) =
          (p.x.real * n.x.real + p.y.real * n.y.real) / vlen (toReal n) := by
        show _ = _ / √(n.x.real * n.x.real + n.y.real * n.y.real)
        ring
      rw [e] at dp cp
      generalize (p.x.real * n.x.real + p.y.real * n.y.real) / vlen (toReal n) = P at *
      have hdef : (⟨⟨⟨-m.y, m.x⟩, m⟩, o⟩ : Line Double).distanceTo p = p.dot m - o := by rw [Line.distanceTo, Vec2.copy_fl]
      have hu := uR_pos
      have hu' := uR_small
      have hη0 := ηR_pos
      have hη := ηR_small
      have hηθ := ηR_θR
      have sθ := slackθ
      have hθ := θR_pos
      have M0 : 0 ≤ M := (abs_nonneg _).trans ho
      have uM : 0 ≤ uR * M := mul_nonneg hu.le M0
      have uM' : uR * M ≤ 1 / 1000 * M := mul_le_mul_of_nonneg_right hu' M0
      have unp := mul_le_mul_of_nonneg_left np hu.le
      have bp : |(p.dot m).real - P| ≤ 18 * uR * M + 4 * ηR := by
        clear hM hM2
        linarith
      have bD : |(p.dot m).real - o.real| ≤ 4 * M + 9 * ηR := by
        have h1 := abs_sub_abs_le_abs_sub (p.dot m).real P
        have h2 := abs_sub (p.dot m).real o.real
        clear hM hM2
        linarith
      have hS := sub_ok (p.dot m) o (pow_room hM (bD.trans (by clear hM hM2; linarith)) (by norm_num))
      have hS' : uR * |(p.dot m).real - o.real| ≤ uR * (4 * M + 9 * ηR) := mul_le_mul_of_nonneg_left bD hu.le
      have uη : uR * ηR ≤ 1 / 1000 * ηR := mul_le_mul_of_nonneg_right hu' hη0
      have t := abs_sub_le (p.dot m - o).real ((p.dot m).real - o.real) (P - o.real)
      rw [show (p.dot m).real - o.real - (P - o.real) = (p.dot m).real - P by ring] at t
      have eM : M / 2 ^ 46 = 128 * (uR * M) := by unfold uR; ring
      have key : |(p.dot m - o).real - (P - o.real)| ≤ M / 2 ^ 46 + 1 / 2 ^ 490 := by
        rw [eM]
        clear hM hM2 eM
        linarith
      clear hM hM2 eM
      generalize M / 2 ^ 46 + 1 / 2 ^ 490 = g at *
      obtain ⟨k1, k2⟩ := abs_le.mp key
      have ep := (eps_small he).1
      clear he
      refine ⟨by rw [hdef]; exact key, fun hh => ?_, fun hh => ?_, fun hh => ?_⟩
      · simp only [Line.pointRight, Line.pointLeft, Line.containsPoint, hdef, decide_eq_true_eq, decide_eq_false_iff_not,
          ← real_lt, ← real_le, pyabs_real, real_neg]
        have : eps.real ≤ |(p.dot m - o).real| := le_trans (by linarith) (le_abs_self _)
        refine ⟨?_, ?_, ?_⟩ <;> linarith
      · simp only [Line.pointRight, Line.pointLeft, Line.containsPoint, hdef, decide_eq_true_eq, decide_eq_false_iff_not,
          ← real_lt, ← real_le, pyabs_real, real_neg]
        have : eps.real ≤ |(p.dot m - o).real| := le_trans (by linarith) (neg_le_abs _)
        refine ⟨?_, ?_, ?_⟩ <;> linarith
      · simp only [Line.pointRight, Line.pointLeft, Line.containsPoint, hdef, decide_eq_true_eq, decide_eq_false_iff_not,
          ← real_lt, ← real_le, pyabs_real, real_neg]
        obtain ⟨h1, h2⟩ := abs_lt.mp hh
        have : |(p.dot m - o).real| < eps.real := abs_lt.mpr ⟨by linarith, by linarith⟩
        refine ⟨this, ?_, ?_⟩ <;> linarith
  · simp only [Line.fromNormal, c2 h, bind, Except.bind]
  · obtain ⟨l, hl⟩ := c3 h h'
    simp only [Line.fromNormal, hl, bind, Except.bind, pure, Except.pure]
    exact ⟨_, rfl⟩

/-- **C78** `LineSegment.from_normal(n, o, s, e)` in the same way: its anchor is the point `o` along `n` and `s` along `n` turned a
quarter counterclockwise, its length is the difference `e - s`; `M` bounds the three numbers. -/
theorem C78_segment_from_normal (eps : Double) (he : 1 / 2 ^ 500 ≤ eps.real) (he1 : eps.real ≤ 1 / 2) (n : Vec2 Double)
    (hn : FiniteVec n) (o s e : Double) (M : ℝ) (hM : M ≤ 2 ^ 500) (ho : |o.real| ≤ M) (hs : |s.real| ≤ M) (he' : |e.real| ≤ M) :
    (LineSegment.fromNormal eps n o s e = .error .valueError ∨ ∃ l, LineSegment.fromNormal eps n o s e = .ok l ∧
      CloseDir (toReal n) (toReal l.normal) ∧ l.direction = ⟨-l.normal.y, l.normal.x⟩ ∧
      |l.length.real - (e.real - s.real)| ≤ 1 / 2 ^ 53 * |e.real - s.real| ∧
      CloseTo (M / 2 ^ 48 + 1 / 2 ^ 490) l.anchor
        ⟨((toReal n).x * o.real - (toReal n).y * s.real) / vlen (toReal n),
         ((toReal n).y * o.real + (toReal n).x * s.real) / vlen (toReal n)⟩) ∧
    (vlen (toReal n) ≤ eps.real * (1 - 1 / 2 ^ 50) → LineSegment.fromNormal eps n o s e = .error .valueError) ∧
    (eps.real * (1 + 1 / 2 ^ 50) ≤ vlen (toReal n) → vlen (toReal n) ≤ 2 ^ 510 →
      ∃ l, LineSegment.fromNormal eps n o s e = .ok l) := by
  obtain ⟨c1, c2, c3⟩ := ofNormal_near he he1 hn
  refine ⟨?_, fun h => ?_, fun h h' => ?_⟩
  · rcases c1 with h | ⟨m, hd, h⟩
    · left; simp only [LineSegment.fromNormal, h, bind, Except.bind]
    · right
      refine ⟨⟨⟨⟨-m.y, m.x⟩, m⟩, ⟨m.x * o + -m.y * s, m.y * o + m.x * s⟩, e - s⟩, ?_, (near_of hd).2, rfl, ?_, ?_⟩
      · simp only [LineSegment.fromNormal, h, bind, Except.bind, pure, Except.pure, f_mul_one]
        rfl
      · exact sub_ok e s (pow_room hM ((abs_sub _ _).trans (by have := (abs_nonneg _).trans ho; clear hM; linarith)) (by norm_num))
      · have hcs := hd.unit
        have hv := hd.vec.mono (k' := 8) (by norm_num)
        have hc := unit_comp hcs
        have hs' : |n.y.real / √(n.x.real * n.x.real + n.y.real * n.y.real)| ≤ 1 :=
          unit_comp (s := n.x.real / √(n.x.real * n.x.real + n.y.real * n.y.real)) (by linarith)
        have hx := along_sum hc hv.1 ho (c' := -(n.y.real / √(n.x.real * n.x.real + n.y.real * n.y.real)))
          (by rw [abs_neg]; exact hs') (d' := -m.y)
          (by rw [real_neg, abs_neg, ← abs_neg]; convert hv.2 using 2; ring) hs hM
        have hy := along_sum hs' hv.2 ho hc hv.1 hs hM
        have eM : M / 2 ^ 48 = 32 * (uR * M) := by unfold uR; ring
        have sθ := slackθ
        have hθ := θR_pos
        have hηθ := ηR_θR
        have hη0 := ηR_pos
        have M0 : 0 ≤ M := (abs_nonneg _).trans ho
        have uM : 0 ≤ uR * M := mul_nonneg uR_pos.le M0
        have g : 28 * uR * M + 4 * ηR ≤ M / 2 ^ 48 + 1 / 2 ^ 490 := by
          rw [eM]; clear hM he eM; linarith
        constructor
        · refine le_trans (le_of_eq ?_) (hx.trans g)
          show |_ - (n.x.real * o.real - n.y.real * s.real) / √(n.x.real * n.x.real + n.y.real * n.y.real)| = _
          congr 1
          ring
        · refine le_trans (le_of_eq ?_) (hy.trans g)
          show |_ - (n.y.real * o.real + n.x.real * s.real) / √(n.x.real * n.x.real + n.y.real * n.y.real)| = _
          congr 1
          ring
  · simp only [LineSegment.fromNormal, c2 h, bind, Except.bind]
  · obtain ⟨l, hl⟩ := c3 h h'
    simp only [LineSegment.fromNormal, hl, bind, Except.bind, pure, Except.pure]
    exact ⟨_, rfl⟩

/-- The line and the segment with normal (3, 4) at 10 from the origin exist, and the line has (0, 0) on its left side. -/
example : ∃ l s, Line.fromNormal (dbl (1 / 100000)) (dvec 3 4) (dbl 10) = .ok l ∧
    l.pointLeft (dbl (1 / 100000)) (dvec 0 0) = true ∧
    LineSegment.fromNormal (dbl (1 / 100000)) (dvec 3 4) (dbl 10) (dbl 0) (dbl 5) = .ok s ∧
    CloseTo (10 / 2 ^ 48 + 1 / 2 ^ 490) s.anchor ⟨6, 8⟩ := by
  have n0 : (dbl 0).real = 0 := by simpa using dbl_int 0 (by norm_num)
  have n3 : (dbl 3).real = 3 := by simpa using dbl_int 3 (by norm_num)
  have n4 : (dbl 4).real = 4 := by simpa using dbl_int 4 (by norm_num)
  have n5 : (dbl 5).real = 5 := by simpa using dbl_int 5 (by norm_num)
  have n10 : (dbl 10).real = 10 := by simpa using dbl_int 10 (by norm_num)
  obtain ⟨h1, h2⟩ := dbl_eps
  have l5 : vlen (toReal (dvec 3 4)) = 5 := by
    rw [vlen_def]; simp only [dvec, n3, n4]
    rw [show (3 : ℝ) * 3 + 4 * 4 = 5 * 5 by norm_num, Real.sqrt_mul_self (by norm_num)]
  have he : 1 / 2 ^ 500 ≤ (dbl (1 / 100000)).real := (inv_pow_le (show 17 ≤ 500 by norm_num)).trans h1
  have he1 : (dbl (1 / 100000)).real ≤ 1 / 2 := h2.trans (by norm_num)
  have p7 : (8 : ℝ) ≤ 2 ^ 510 := by
    calc (8 : ℝ) = 2 ^ 3 := by norm_num
      _ ≤ 2 ^ 510 := pow_le_real (by norm_num)
  have p10 : (10 : ℝ) ≤ 2 ^ 500 := by
    calc (10 : ℝ) ≤ 2 ^ 4 := by norm_num
      _ ≤ 2 ^ 500 := pow_le_real (by norm_num)
  have wn : Within 10 (dvec 3 4) := by
    constructor
    · show |(dbl 3).real| ≤ 10; rw [n3]; norm_num
    · show |(dbl 4).real| ≤ 10; rw [n4]; norm_num
  have w0 : Within 10 (dvec 0 0) := by
    constructor <;> (show |(dbl 0).real| ≤ 10; rw [n0]; norm_num)
  have hf : FiniteVec (dvec 3 4) := finite_within (p10.trans (pow_le_real (by norm_num))) wn
  have hlong : (dbl (1 / 100000)).real * (1 + 1 / 2 ^ 50) ≤ vlen (toReal (dvec 3 4)) := by
    rw [l5]; clear he; norm_num at *; linarith
  have hshort : vlen (toReal (dvec 3 4)) ≤ 2 ^ 510 := by rw [l5]; refine le_trans ?_ p7; norm_num
  have a10 : |(dbl 10).real| ≤ 10 := by rw [n10]; norm_num
  obtain ⟨c1, -, c2⟩ := C78_line_from_normal _ he he1 (dvec 3 4) hf (dbl 10)
  obtain ⟨l, hl⟩ := c2 hlong hshort
  obtain ⟨d1, -, d2⟩ := C78_segment_from_normal _ he he1 (dvec 3 4) hf (dbl 10) (dbl 0) (dbl 5) 10 p10 a10
    (by rw [n0]; norm_num) (by rw [n5]; norm_num)
  obtain ⟨s, hs⟩ := d2 hlong hshort
  refine ⟨l, s, hl, ?_, hs, ?_⟩
  · rcases c1 with c1 | ⟨l', hl', -, -, c⟩
    · rw [hl] at c1; cases c1
    · rw [hl] at hl'
      cases hl'
      refine ((c (dvec 0 0) 10 p10 a10 w0).2.2.1 ?_).1
      simp only [dvec, n0]
      rw [n10]
      have : (1 : ℝ) / 2 ^ 490 ≤ 1 / 2 ^ 1 := inv_pow_le (by norm_num)
      clear he p10 p7 hshort a10
      generalize (1 : ℝ) / 2 ^ 490 = z at *
      norm_num at *
      linarith
  · rcases d1 with d1 | ⟨s', hs', -, -, -, d⟩
    · rw [hs] at d1; cases d1
    · rw [hs] at hs'
      cases hs'
      rw [l5] at d
      simp only [toReal, dvec, n3, n4, n10, n0] at d
      norm_num at d ⊢
      exact d

end Planar
