import Verif.Props.FloatTransformLines
/- Property C78: parallel and perpendicular lines in double precision. -/
set_option linter.unusedSectionVars false
namespace Planar
open Spec
variable [PyMath Double] [SqrtOk]

/-- A line through `p` along a direction that is known up to rounding. -/
theorem line_along {eps : Double} (he : 1 / 2 ^ 500 ≤ eps.real) (he1 : eps.real ≤ 1 / 2) {w : Vec2 Double} {V : Vec2 ℝ}
    (hV : 0 < vlen V) (hw : CloseTo (6 * uR) w (dirOf V)) (p : Vec2 Double) :
    ∃ l', Line.new eps p w = .ok l' ∧ CloseTo (1 / 2 ^ 48) l'.direction (dirOf V) ∧
      l'.normal = ⟨l'.direction.y, -l'.direction.x⟩ ∧ l'.containsPoint eps p = true ∧
      ∀ (q : Vec2 Double) (M : ℝ), M ≤ 2 ^ 500 → Within M p → Within M q →
        |(l'.distanceTo q).real - signedDist (toReal p) V (toReal q)| ≤ M / 2 ^ 45 + 1 / 2 ^ 490 := by
  have hU := unit_of_div hV
  have hu := uR_pos
  have hu' : uR ≤ 1 / 2 ^ 53 := by norm_num [uR]
  have ep := (eps_small he).1
  have b1 : |V.x / vlen V| ≤ 1 := unit_comp hU
  have b2 : |V.y / vlen V| ≤ 1 := unit_comp (s := V.x / vlen V) (by have := hU; unfold vlen; linarith)
  have hU1 : vlen (dirOf V) = 1 := by
    show √(_) = 1
    have : V.x / vlen V * (V.x / vlen V) + V.y / vlen V * (V.y / vlen V) = 1 := hU
    simp only [dirOf]
    rw [this, Real.sqrt_one]
  have hlen := abs_le.mp (vlen_near hw)
  rw [hU1] at hlen
  have hwf : FiniteVec w := by
    refine finite_within (M := 2) (by calc (2 : ℝ) = 2 ^ 1 := by norm_num
                                      _ ≤ 2 ^ 1023 := pow_le_real (by norm_num)) ⟨?_, ?_⟩
    · have t := abs_sub_abs_le_abs_sub w.x.real (dirOf V).x
      have h1 := hw.1
      change _ - |V.x / vlen V| ≤ _ at t
      norm_num at hu'
      linarith
    · have t := abs_sub_abs_le_abs_sub w.y.real (dirOf V).y
      have h1 := hw.2
      change _ - |V.y / vlen V| ≤ _ at t
      norm_num at hu'
      linarith
  have hlong : eps.real * (1 + 1 / 2 ^ 50) ≤ vlen (toReal w) := by
    have : eps.real * (1 + 1 / 2 ^ 50) ≤ 1 / 2 * (1 + 1 / 2 ^ 50) := mul_le_mul_of_nonneg_right he1 (by norm_num)
    norm_num at hu' this ⊢
    clear he
    linarith
  have hshort : vlen (toReal w) ≤ 2 ^ 510 := by
    have : (2 : ℝ) ^ 1 ≤ 2 ^ 510 := pow_le_real (by norm_num)
    rw [pow_one] at this
    refine le_trans ?_ this
    norm_num at hu'
    clear he this
    linarith [hlen.2]
  obtain ⟨l', hl⟩ := ((C78_constructors eps he he1 p w hwf).1 hlong hshort).1
  obtain ⟨hd, hn, ho⟩ := new_line he he1 hwf hl
  refine ⟨l', hl, ?_, hn, ?_, fun q M hM hp hq => ?_⟩
  · have := dir_near hw (by rw [hU1]; norm_num) hd
    rw [hU1] at this
    have e : dirOf (dirOf V) = dirOf V := by
      refine Vec2.ext ?_ ?_
      · show (dirOf V).x / vlen (dirOf V) = _
        rw [hU1, div_one]
      · show (dirOf V).y / vlen (dirOf V) = _
        rw [hU1, div_one]
    rw [e] at this
    have e2 : 3 * (6 * uR) / 1 + 6 * uR ≤ 1 / 2 ^ 48 := by norm_num at hu' ⊢; linarith
    exact ⟨this.1.trans e2, this.2.trans e2⟩
  · have e0 : l'.distanceTo p = 0 := by
      unfold Line.distanceTo
      rw [Vec2.copy_fl, ho]
      exact f_sub_self _
    simp only [Line.containsPoint, decide_eq_true_eq]
    rw [← real_lt, pyabs_real, e0, real_zero, abs_zero]
    exact ep
  · have key := (C78_line_distance eps he he1 p w q hwf M hM hp hq l' hl).1
    have hwp : 0 < vlen (toReal w) := hd.pos
    have u1 := unit_near hw.1 hw.2 (by change 0 < vlen (dirOf V); rw [hU1]; norm_num) hwp
    have u2 := unit_near hw.2 hw.1 (by rw [add_comm]; change 0 < vlen (dirOf V); rw [hU1]; norm_num) (by rw [add_comm]; exact hwp)
    rw [add_comm (w.y.real * w.y.real), add_comm ((dirOf V).y * (dirOf V).y)] at u2
    change |(toReal w).x / vlen (toReal w) - (dirOf V).x / vlen (dirOf V)| ≤ 3 * (6 * uR) / vlen (dirOf V) at u1
    change |(toReal w).y / vlen (toReal w) - (dirOf V).y / vlen (dirOf V)| ≤ 3 * (6 * uR) / vlen (dirOf V) at u2
    rw [hU1, div_one, div_one] at u1 u2
    have M0 : 0 ≤ M := (abs_nonneg _).trans hp.1
    have d1 : |q.x.real - p.x.real| ≤ 2 * M := (abs_sub _ _).trans (by linarith [hp.1, hq.1])
    have d2 : |q.y.real - p.y.real| ≤ 2 * M := (abs_sub _ _).trans (by linarith [hp.2, hq.2])
    have e : signedDist (toReal p) (toReal w) (toReal q) - signedDist (toReal p) V (toReal q) =
        (q.x.real - p.x.real) * ((toReal w).y / vlen (toReal w) - (dirOf V).y) -
        (q.y.real - p.y.real) * ((toReal w).x / vlen (toReal w) - (dirOf V).x) := by
      unfold signedDist dirOf
      simp only [toReal]
      ring
    have m1 := mul_le_mul d1 u2 (abs_nonneg _) (by linarith : 0 ≤ 2 * M)
    have m2 := mul_le_mul d2 u1 (abs_nonneg _) (by linarith : 0 ≤ 2 * M)
    rw [← abs_mul] at m1 m2
    have s : |signedDist (toReal p) (toReal w) (toReal q) - signedDist (toReal p) V (toReal q)| ≤ 72 * uR * M := by
      rw [e]
      refine (abs_sub _ _).trans ?_
      linarith
    have t := abs_sub_le (l'.distanceTo q).real (signedDist (toReal p) (toReal w) (toReal q)) (signedDist (toReal p) V (toReal q))
    have z : M / 2 ^ 46 + 72 * uR * M ≤ M / 2 ^ 45 := by
      have e1 : M / 2 ^ 46 = 128 * uR * M := by unfold uR; ring
      have e2 : M / 2 ^ 45 = 256 * uR * M := by unfold uR; ring
      rw [e1, e2]
      have := mul_nonneg hu.le M0
      linarith
    generalize (1 : ℝ) / 2 ^ 490 = g at *
    clear hM he
    linarith

theorem dir_6u {v n : Vec2 Double} (h : NearDir v.x.real v.y.real n) : CloseTo (6 * uR) n (dirOf (toReal v)) := by
  have hU := unit_of_div h.pos
  have hu := uR_pos
  have hη := ηR_small
  have b1 := unit_comp hU
  have b2 := unit_comp (c := v.y.real / √(v.x.real * v.x.real + v.y.real * v.y.real))
    (s := v.x.real / √(v.x.real * v.x.real + v.y.real * v.y.real)) (by linarith)
  have m1 := mul_le_mul_of_nonneg_left b1 hu.le
  have m2 := mul_le_mul_of_nonneg_left b2 hu.le
  have px := h.px
  have py := h.py
  constructor
  · change |n.x.real - v.x.real / √(v.x.real * v.x.real + v.y.real * v.y.real)| ≤ _
    linarith
  · change |n.y.real - v.y.real / √(v.x.real * v.x.real + v.y.real * v.y.real)| ≤ _
    linarith

/-- **C78** `Line(a, v).parallel(p)` is never an exception. It is the line through `p` along `v`: its direction is that of `v` up
to `2 ^ -48` in each component, it contains `p` (exactly, whatever the coordinates of `p`), and the distances it computes are
those from the exact line up to `M / 2 ^ 45`, where `M` bounds the coordinates of the points. -/
theorem C78_parallel (eps : Double) (he : 1 / 2 ^ 500 ≤ eps.real) (he1 : eps.real ≤ 1 / 2) (a v p : Vec2 Double)
    (hv : FiniteVec v) (l : Line Double) (h : Line.new eps a v = .ok l) :
    ∃ l', l.parallel eps p = .ok l' ∧ CloseTo (1 / 2 ^ 48) l'.direction (dirOf (toReal v)) ∧
      l'.normal = ⟨l'.direction.y, -l'.direction.x⟩ ∧ l'.containsPoint eps p = true ∧
      ∀ (q : Vec2 Double) (M : ℝ), M ≤ 2 ^ 500 → Within M p → Within M q →
        |(l'.distanceTo q).real - signedDist (toReal p) (toReal v) (toReal q)| ≤ M / 2 ^ 45 + 1 / 2 ^ 490 := by
  obtain ⟨hd, -, -⟩ := new_line he he1 hv h
  exact line_along (V := toReal v) he he1 hd.pos (dir_6u hd) p

/-- **C78** `Line(a, v).perpendicular(p)` in the same way: its direction is `v` turned a quarter counterclockwise. -/
theorem C78_perpendicular (eps : Double) (he : 1 / 2 ^ 500 ≤ eps.real) (he1 : eps.real ≤ 1 / 2) (a v p : Vec2 Double)
    (hv : FiniteVec v) (l : Line Double) (h : Line.new eps a v = .ok l) :
    ∃ l', l.perpendicular eps p = .ok l' ∧ CloseTo (1 / 2 ^ 48) l'.direction (dirOf ⟨-v.y.real, v.x.real⟩) ∧
      l'.normal = ⟨l'.direction.y, -l'.direction.x⟩ ∧ l'.containsPoint eps p = true ∧
      ∀ (q : Vec2 Double) (M : ℝ), M ≤ 2 ^ 500 → Within M p → Within M q →
        |(l'.distanceTo q).real - signedDist (toReal p) ⟨-v.y.real, v.x.real⟩ (toReal q)| ≤ M / 2 ^ 45 + 1 / 2 ^ 490 := by
  obtain ⟨hd, -, -⟩ := new_line he he1 hv h
  have e : vlen ⟨-v.y.real, v.x.real⟩ = vlen (toReal v) := by
    unfold vlen
    simp only [toReal]
    congr 1
    ring
  refine line_along (V := ⟨-v.y.real, v.x.real⟩) he he1 (by rw [e]; exact hd.pos) ?_ p
  have h6 := dir_6u hd
  constructor
  · show |(-l.direction.y).real - -v.y.real / vlen _| ≤ _
    rw [e, real_neg, neg_div, ← abs_neg, neg_sub, neg_sub_neg, abs_sub_comm, ← abs_neg, neg_sub, abs_sub_comm]
    have := h6.2
    rw [abs_sub_comm] at this
    simpa [dirOf, toReal, abs_sub_comm] using this
  · show |l.direction.x.real - v.x.real / vlen _| ≤ _
    rw [e]
    exact h6.1

/-- The line through (0, 0) along (3, 4), its parallel and its perpendicular through (7, 1). -/
example : ∃ l m n, Line.new (dbl (1 / 100000)) (dvec 0 0) (dvec 3 4) = .ok l ∧
    l.parallel (dbl (1 / 100000)) (dvec 7 1) = .ok m ∧ CloseTo (1 / 2 ^ 48) m.direction ⟨3 / 5, 4 / 5⟩ ∧
    l.perpendicular (dbl (1 / 100000)) (dvec 7 1) = .ok n ∧ CloseTo (1 / 2 ^ 48) n.direction ⟨-4 / 5, 3 / 5⟩ := by
  have n3 : (dbl 3).real = 3 := by simpa using dbl_int 3 (by norm_num)
  have n4 : (dbl 4).real = 4 := by simpa using dbl_int 4 (by norm_num)
  obtain ⟨h1, h2⟩ := dbl_eps
  have l5 : vlen (toReal (dvec 3 4)) = 5 := by
    rw [vlen_def]; simp only [dvec, n3, n4]
    rw [show (3 : ℝ) * 3 + 4 * 4 = 5 * 5 by norm_num, Real.sqrt_mul_self (by norm_num)]
  have l5' : vlen ⟨-4, 3⟩ = 5 := by
    unfold vlen
    rw [show (-4 : ℝ) * -4 + 3 * 3 = 5 * 5 by norm_num, Real.sqrt_mul_self (by norm_num)]
  have he : 1 / 2 ^ 500 ≤ (dbl (1 / 100000)).real := (inv_pow_le (show 17 ≤ 500 by norm_num)).trans h1
  have he1 : (dbl (1 / 100000)).real ≤ 1 / 2 := h2.trans (by norm_num)
  have p7 : (8 : ℝ) ≤ 2 ^ 510 := by
    calc (8 : ℝ) = 2 ^ 3 := by norm_num
      _ ≤ 2 ^ 510 := pow_le_real (by norm_num)
  have hf : FiniteVec (dvec 3 4) := by
    constructor
    · exact finite_of (M := 2 ^ 3) (pow_lt_real (by norm_num)) (by show |(dbl 3).real| ≤ _; rw [n3]; norm_num)
    · exact finite_of (M := 2 ^ 3) (pow_lt_real (by norm_num)) (by show |(dbl 4).real| ≤ _; rw [n4]; norm_num)
  obtain ⟨l, hl⟩ := ((C78_constructors _ he he1 (dvec 0 0) (dvec 3 4) hf).1 (by rw [l5]; clear he; norm_num at *; linarith)
    (by rw [l5]; refine le_trans ?_ p7; norm_num)).1
  obtain ⟨m, hm, hm', -⟩ := C78_parallel _ he he1 _ _ (dvec 7 1) hf l hl
  obtain ⟨n, hn, hn', -⟩ := C78_perpendicular _ he he1 _ _ (dvec 7 1) hf l hl
  refine ⟨l, m, n, hl, hm, ?_, hn, ?_⟩
  · have e : dirOf (toReal (dvec 3 4)) = ⟨3 / 5, 4 / 5⟩ := by
      unfold dirOf; rw [l5]; simp only [toReal, dvec, n3, n4]
    rw [← e]; exact hm'
  · have e : dirOf ⟨-(dvec 3 4).y.real, (dvec 3 4).x.real⟩ = ⟨-4 / 5, 3 / 5⟩ := by
      unfold dirOf; simp only [dvec, n3, n4]; rw [l5']
    rw [← e]; exact hn'

end Planar
