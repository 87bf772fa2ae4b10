import Verif.Lemmas.FloatAffine
import Verif.Props.PolyState
import Verif.Props.FloatGrid
/- Property C79: transforms in double precision. -/
set_option linter.unusedSectionVars false
namespace Planar
open Spec Polygon

/-- **C79** a transformed point is the exact image up to rounding: an error of `2 ^ -51` of the sum of the absolute values of
the three terms of each coordinate. -/
theorem C79_apply (T : Affine Double) (p : Vec2 Double) (hx : (imageSize T p).x ≤ 2 ^ 1000)
    (hy : (imageSize T p).y ≤ 2 ^ 1000) :
    |(T.apply p).x.real - (image T p).x| ≤ 1 / 2 ^ 51 * (imageSize T p).x + 1 / 2 ^ 1072 ∧
    |(T.apply p).y.real - (image T p).y| ≤ 1 / 2 ^ 51 * (imageSize T p).y + 1 / 2 ^ 1072 := by
  have one : ∀ x a y d c : Double, |x.real * a.real| + |y.real * d.real| + |c.real| ≤ 2 ^ 1000 →
      |((x * a + y * d + c) * 1).real - (x.real * a.real + y.real * d.real + c.real)| ≤
        1 / 2 ^ 51 * (|x.real * a.real| + |y.real * d.real| + |c.real|) + 1 / 2 ^ 1072 := by
    intro x a y d c h
    rw [RoundedArith.mul_one]
    have h1 := abs_nonneg (x.real * a.real)
    have h2 := abs_nonneg (y.real * d.real)
    have h3 := abs_nonneg c.real
    generalize hP : (2 : ℝ) ^ 1000 = P at h
    have k := sum3_in (x := x) (a := a) (y := y) (d := d) (c := c) (by rw [hP]; linarith) (by rw [hP]; linarith)
      (by rw [hP]; linarith)
    exact near_round (by linarith) k (by norm_num) (by norm_num)
  exact ⟨one _ _ _ _ _ hx, one _ _ _ _ _ hy⟩

/-- **C79** every vertex of `T * polygon`, and of the polygon after `polygon *= T`, is that close to the exact image of the
vertex, whatever happened to the polygon before. -/
theorem C79_vertices (eps : Double) (vs : List (Vec2 Double)) (ops : List (PolyOp Double)) (T : Affine Double)
    (hT : ∀ v ∈ ((Polygon.fromPoints vs).after eps ops).verts, (imageSize T v).x ≤ 2 ^ 1000 ∧ (imageSize T v).y ≤ 2 ^ 1000) :
    let s := (Polygon.fromPoints vs).after eps ops
    ∀ t : Polygon Double, t = s.transformed T ∨ t = s.imul T → t.verts.length = s.verts.length ∧
      ∀ (i : Nat) (v w : Vec2 Double), s.verts[i]? = some v → t.verts[i]? = some w →
        |w.x.real - (image T v).x| ≤ 1 / 2 ^ 51 * (imageSize T v).x + 1 / 2 ^ 1072 ∧
        |w.y.real - (image T v).y| ≤ 1 / 2 ^ 51 * (imageSize T v).y + 1 / 2 ^ 1072 := by
  intro s t ht
  obtain ⟨h1, h2⟩ := C19_polygon eps vs ops T
  have hv : t.verts = s.verts.map T.apply := by
    rcases ht with rfl | rfl
    · rw [← h1]; exact h2
    · exact h2
  refine ⟨by rw [hv, List.length_map], fun i v w hi hw => ?_⟩
  rw [hv, List.getElem?_map, hi] at hw
  cases hw
  obtain ⟨a, b⟩ := hT v (List.mem_of_getElem? hi)
  exact C79_apply T v a b

/-- **C79** the entries of a product of transforms are those of the matrix product up to rounding. -/
theorem C79_compose (S T : Affine Double) (hS : WithinT (2 ^ 500) S) (hT : WithinT (2 ^ 500) T) :
    Near (1 / 2 ^ 51) (|S.a.real * T.a.real| + |S.b.real * T.d.real|) (1 / 2 ^ 1072) (S * T).a
      (S.a.real * T.a.real + S.b.real * T.d.real) ∧
    Near (1 / 2 ^ 51) (|S.a.real * T.b.real| + |S.b.real * T.e.real|) (1 / 2 ^ 1072) (S * T).b
      (S.a.real * T.b.real + S.b.real * T.e.real) ∧
    Near (1 / 2 ^ 51) (|S.a.real * T.c.real| + |S.b.real * T.f.real| + |S.c.real|) (1 / 2 ^ 1072) (S * T).c
      (S.a.real * T.c.real + S.b.real * T.f.real + S.c.real) ∧
    Near (1 / 2 ^ 51) (|S.d.real * T.a.real| + |S.e.real * T.d.real|) (1 / 2 ^ 1072) (S * T).d
      (S.d.real * T.a.real + S.e.real * T.d.real) ∧
    Near (1 / 2 ^ 51) (|S.d.real * T.b.real| + |S.e.real * T.e.real|) (1 / 2 ^ 1072) (S * T).e
      (S.d.real * T.b.real + S.e.real * T.e.real) ∧
    Near (1 / 2 ^ 51) (|S.d.real * T.c.real| + |S.e.real * T.f.real| + |S.f.real|) (1 / 2 ^ 1072) (S * T).f
      (S.d.real * T.c.real + S.e.real * T.f.real + S.f.real) := by
  obtain ⟨sa, sb, sc, sd, se, sf⟩ := hS
  obtain ⟨ta, tb, tc, td, te, tf⟩ := hT
  have two : ∀ x a y d : Double, |x.real| ≤ 2 ^ 500 → |a.real| ≤ 2 ^ 500 → |y.real| ≤ 2 ^ 500 → |d.real| ≤ 2 ^ 500 →
      Near (1 / 2 ^ 51) (|x.real * a.real| + |y.real * d.real|) (1 / 2 ^ 1072) (x * a + y * d)
        (x.real * a.real + y.real * d.real) := by
    intro x a y d hx ha hy hd
    exact near_round (add_nonneg (abs_nonneg _) (abs_nonneg _)) (dot_in (mul_pow_le hx ha) (mul_pow_le hy hd)).1 (by norm_num)
      (by norm_num)
  have three : ∀ x a y d c : Double, |x.real| ≤ 2 ^ 500 → |a.real| ≤ 2 ^ 500 → |y.real| ≤ 2 ^ 500 → |d.real| ≤ 2 ^ 500 →
      |c.real| ≤ 2 ^ 500 →
      Near (1 / 2 ^ 51) (|x.real * a.real| + |y.real * d.real| + |c.real|) (1 / 2 ^ 1072) (x * a + y * d + c)
        (x.real * a.real + y.real * d.real + c.real) := by
    intro x a y d c hx ha hy hd hc
    exact near_round (add_nonneg (add_nonneg (abs_nonneg _) (abs_nonneg _)) (abs_nonneg _))
      (sum3_in (mul_pow_le hx ha) (mul_pow_le hy hd) (hc.trans (pow_le_real (by norm_num)))) (by norm_num) (by norm_num)
  exact ⟨two _ _ _ _ sa ta sb td, two _ _ _ _ sa tb sb te, three _ _ _ _ _ sa tc sb tf sc, two _ _ _ _ sd ta se td,
    two _ _ _ _ sd tb se te, three _ _ _ _ _ sd tc se tf sf⟩

/-- **C79** the determinant, and `is_degenerate` away from EPSILON by that error. -/
theorem C79_determinant (eps : Double) (T : Affine Double) (hT : WithinT (2 ^ 500) T) :
    Near (1 / 2 ^ 51) (detSize T) (1 / 2 ^ 1072) T.determinant (exactDet T) ∧
    (|exactDet T| < eps.real - (1 / 2 ^ 51 * detSize T + 1 / 2 ^ 1072) → T.isDegenerate eps = true) ∧
    (eps.real + (1 / 2 ^ 51 * detSize T + 1 / 2 ^ 1072) ≤ |exactDet T| → T.isDegenerate eps = false) := by
  have K0 : 0 ≤ detSize T := add_nonneg (abs_nonneg _) (abs_nonneg _)
  have h := near_round K0 (det_in (by norm_num) hT).1 (by norm_num) (by norm_num)
  have t1 := abs_sub_abs_le_abs_sub T.determinant.real (exactDet T)
  have t2 := abs_sub_abs_le_abs_sub (exactDet T) T.determinant.real
  rw [abs_sub_comm] at t2
  generalize 1 / (2 : ℝ) ^ 1072 = η at *
  refine ⟨h, fun hlt => ?_, fun hle => not_degenerate_iff.mpr (by linarith)⟩
  rw [← Bool.not_eq_false]
  intro hf
  have := not_degenerate_iff.mp hf
  linarith

/-- **C79** `~T` returns or raises TransformNotInvertible, nothing else: it raises for determinants below EPSILON, and does not
from EPSILON on, up to rounding. -/
theorem C79_inverse_raises (eps : Double) (h0 : 0 < eps) (T : Affine Double) (hT : WithinT (2 ^ 500) T) :
    ((∃ R, T.invert eps = .ok R) ∨ T.invert eps = .error .notInvertible) ∧
    (|exactDet T| < eps.real - (1 / 2 ^ 51 * detSize T + 1 / 2 ^ 1072) → T.invert eps = .error .notInvertible) ∧
    (eps.real + (1 / 2 ^ 51 * detSize T + 1 / 2 ^ 1072) ≤ |exactDet T| → ∃ R, T.invert eps = .ok R) := by
  have ok : T.isDegenerate eps = false → ∃ R, T.invert eps = .ok R := by
    intro hf
    have h1 := not_degenerate_iff.mp hf
    have d0 : (T.determinant == 0) = false := by
      rw [beq_eq_false_iff_ne]
      intro h2
      rw [h2, real_zero, abs_zero, ← real_zero] at h1
      exact absurd (real_le.mp h1) (not_le.mpr h0)
    unfold Affine.invert
    simp only [hf, pydiv, d0, Bool.false_eq_true, if_false, bind, Except.bind, pure, Except.pure]
    exact ⟨_, rfl⟩
  have er : T.isDegenerate eps = true → T.invert eps = .error .notInvertible := by
    intro hf; unfold Affine.invert; rw [if_pos hf]
  obtain ⟨-, h2, h3⟩ := C79_determinant eps T hT
  refine ⟨?_, fun h => er (h2 h), fun h => ok (h3 h)⟩
  cases hd : T.isDegenerate eps
  · exact .inl (ok hd)
  · exact .inr (er hd)

theorem two_neg_600 {x y : ℝ} (hx : |x| ≤ 2 ^ 200) (hy : |y| ≤ 2 ^ 200) : 4 * ηR * (|x| + |y| + 1) ≤ 1 / 2 ^ 800 := by
  have e : ηR = 1 / 2 ^ 275 * (1 / 2 ^ 800) := inv_pow_split (m := 275) (n := 800)
  have h : 4 * (|x| + |y| + 1) ≤ 2 ^ 275 := by
    have h1 : (1 : ℝ) ≤ 2 ^ 200 := one_le_pow₀ (by norm_num)
    have h2 : (2 : ℝ) ^ 275 = 2 ^ 75 * 2 ^ 200 := by rw [← pow_add]
    rw [h2]
    generalize (2 : ℝ) ^ 200 = P at *
    clear e h2
    have h3 : 12 * P ≤ 2 ^ 75 * P := mul_le_mul_of_nonneg_right (by norm_num) (by linarith)
    refine le_trans ?_ h3
    linarith
  have p : (0 : ℝ) < 1 / 2 ^ 800 := by positivity
  have q := two_pow_pos 275
  rw [e]
  generalize 1 / (2 : ℝ) ^ 800 = w at *
  generalize (2 : ℝ) ^ 275 = P at *
  calc 4 * (1 / P * w) * (|x| + |y| + 1) = w * (4 * (|x| + |y| + 1) / P) := by ring
    _ ≤ w * 1 := mul_le_mul_of_nonneg_left ((div_le_one q).mpr h) p.le
    _ = w := mul_one w

theorem ηR_le_800 : ηR ≤ 1 / 2 ^ 800 := inv_pow_le (by norm_num)

/-- **C79** the entries of `~T`, relative to those of the exact inverse matrix: the errors are `2 ^ -50` (`2 ^ -49` for the two
entries that translate) times the amount of cancellation in the determinant, `spread T`, if that is at most `2 ^ 48`. -/
theorem C79_inverse (eps : Double) (he : 1 / 2 ^ 200 ≤ eps.real) (T R : Affine Double) (hT : WithinT (2 ^ 200) T)
    (hK : detSize T ≤ 2 ^ 48 * |exactDet T|) (h : T.invert eps = .ok R) :
    exactDet T ≠ 0 ∧
    Near (1 / 2 ^ 50 * spread T) |T.e.real / exactDet T| (1 / 2 ^ 800) R.a (T.e.real / exactDet T) ∧
    Near (1 / 2 ^ 50 * spread T) |T.b.real / exactDet T| (1 / 2 ^ 800) R.b (-(T.b.real / exactDet T)) ∧
    Near (1 / 2 ^ 50 * spread T) |T.d.real / exactDet T| (1 / 2 ^ 800) R.d (-(T.d.real / exactDet T)) ∧
    Near (1 / 2 ^ 50 * spread T) |T.a.real / exactDet T| (1 / 2 ^ 800) R.e (T.a.real / exactDet T) ∧
    Near (1 / 2 ^ 49 * spread T) ((|T.c.real * T.e.real| + |T.f.real * T.b.real|) / |exactDet T|) (1 / 2 ^ 800) R.c
      ((T.f.real * T.b.real - T.c.real * T.e.real) / exactDet T) ∧
    Near (1 / 2 ^ 49 * spread T) ((|T.c.real * T.d.real| + |T.f.real * T.a.real|) / |exactDet T|) (1 / 2 ^ 800) R.f
      ((T.c.real * T.d.real - T.f.real * T.a.real) / exactDet T) := by
  have k := nearInv he hT hK h
  have hu := uR_pos
  have hs : spread T = detSize T / |exactDet T| := rfl
  have h8 := ηR_le_800
  have h600 := two_neg_600 (x := -T.c.real) (y := T.f.real) (by rw [abs_neg]; exact hT.2.2.1) hT.2.2.2.2.2
  rw [← hs] at k
  have κ1 := k.one
  have κ0 : 0 ≤ uR * spread T := by have := k.small; exact mul_nonneg hu.le (by linarith)
  have ent : ∀ (r : Double) (x : ℝ), |r.real - x * (1 / exactDet T)| ≤
      6 * (uR * spread T) * |x * (1 / exactDet T)| + ηR →
      Near (1 / 2 ^ 50 * spread T) |x / exactDet T| (1 / 2 ^ 800) r (x / exactDet T) := by
    intro r x hx
    rw [mul_one_div] at hx
    unfold Near
    rw [u50]
    have := mul_nonneg κ0 (abs_nonneg (x / exactDet T))
    generalize 1 / (2 : ℝ) ^ 800 = w at *
    linarith
  have sh : ∀ (r : Double) (x y s : ℝ) (A B : ℝ), s = x - y → |x| = A / |exactDet T| → |y| = B / |exactDet T| →
      |r.real - (x - y)| ≤ 9 * (uR * spread T) * (|x| + |y|) + 4 * ηR * (|-T.c.real| + |T.f.real| + 1) →
      Near (1 / 2 ^ 49 * spread T) ((A + B) / |exactDet T|) (1 / 2 ^ 800) r s := by
    intro r x y s A B hs' hA hB hx
    unfold Near
    rw [hs', u49, add_div, ← hA, ← hB]
    have := mul_nonneg κ0 (add_nonneg (abs_nonneg x) (abs_nonneg y))
    generalize 1 / (2 : ℝ) ^ 800 = w at *
    linarith
  refine ⟨k.det, ent _ _ k.a, ?_, ?_, ent _ _ k.e, ?_, ?_⟩
  · have := ent _ _ k.b; rwa [neg_div, abs_neg] at this
  · have := ent _ _ k.d; rwa [neg_div, abs_neg] at this
  · refine sh _ _ _ _ _ _ ?_ ?_ ?_ k.c
    · ring
    · rw [neg_mul, abs_neg, ← mul_assoc, mul_one_div, abs_div]
    · rw [neg_mul, mul_neg, abs_neg, ← mul_assoc, mul_one_div, abs_div]
  · refine sh _ _ _ _ _ _ ?_ ?_ ?_ k.f
    · ring
    · rw [neg_mul, neg_mul, mul_neg, neg_neg, ← mul_assoc, mul_one_div, abs_div]
    · rw [← mul_assoc, mul_one_div, abs_div]

theorem pyabs_lt_iff {eps x : Double} : pyabs x < eps ↔ |x.real| < eps.real := by rw [← real_lt, pyabs_real]
theorem le_pyabs_iff {eps x : Double} : pyabs x ≥ eps ↔ eps.real ≤ |x.real| := by rw [ge_iff_le, ← real_le, pyabs_real]

/-- Rounding does not take a difference of at least EPSILON below EPSILON. -/
theorem diff_ge {eps x y : Double} (h0 : 0 < eps.real) (h : eps.real ≤ |x.real - y.real|) : eps.real ≤ |(x - y).real| := by
  have key : ∀ z : ℚ, eps.val ≤ z → eps.val ≤ double.rnd z := by
    intro z hz
    have := double.mono _ _ hz
    rwa [eps.fixed] at this
  rcases le_abs.mp h with h1 | h1
  · refine le_abs.mpr (.inl ?_)
    have : eps.val ≤ x.val - y.val := (Rat.cast_le (K := ℝ)).mp (by push_cast; exact h1)
    exact Rat.cast_le.mpr (key _ this)
  · refine le_abs.mpr (.inr ?_)
    have : eps.val ≤ -(x.val - y.val) := (Rat.cast_le (K := ℝ)).mp (by push_cast; exact h1)
    have h2 := key _ this
    rw [double.odd] at h2
    have h3 : ((eps.val : ℚ) : ℝ) ≤ ((-double.rnd (x.val - y.val) : ℚ) : ℝ) := Rat.cast_le.mpr h2
    push_cast at h3
    exact h3

/-- Nor a difference clearly below EPSILON up to it. -/
theorem diff_lt {eps x y : Double} (h1 : eps.real ≤ 2 ^ 1000)
    (h : |x.real - y.real| < (1 - 1 / 2 ^ 51) * eps.real) : |(x - y).real| < eps.real := by
  have hd := abs_nonneg (x.real - y.real)
  have e0 : 0 < eps.real := by
    by_contra hc
    have : (1 - 1 / 2 ^ 51) * eps.real ≤ 0 := mul_nonpos_of_nonneg_of_nonpos (by norm_num) (not_lt.mp hc)
    linarith
  have h2 : (1 - 1 / 2 ^ 51) * eps.real ≤ 1 * eps.real := mul_le_mul_of_nonneg_right (by norm_num) e0.le
  have k := sub_ok x y ((h.le.trans (by linarith : _ ≤ eps.real)).trans (h1.trans (pow_le_real (by norm_num))))
  have t := abs_sub_abs_le_abs_sub (x - y).real (x.real - y.real)
  have h3 : uR * |x.real - y.real| ≤ uR * eps.real := mul_le_mul_of_nonneg_left (by linarith) uR_pos.le
  rw [u51] at h
  have := mul_nonneg uR_pos.le e0.le
  clear h1 h2
  linarith

/-- **C79** the flags: `is_rectilinear` is exact, `almost_equals` is never true of transforms with an entry that differs by
EPSILON or more and always true of those whose entries differ by less than `(1 - 2 ^ -51)` EPSILON. -/
theorem C79_flags (eps : Double) (T S : Affine Double) :
    (T.isRectilinear eps = true ↔ (|T.a.real| < eps.real ∧ |T.e.real| < eps.real) ∨ (|T.d.real| < eps.real ∧ |T.b.real| < eps.real)) ∧
    (0 < eps.real → T.almostEquals eps S = true →
      |T.a.real - S.a.real| < eps.real ∧ |T.b.real - S.b.real| < eps.real ∧ |T.c.real - S.c.real| < eps.real ∧
      |T.d.real - S.d.real| < eps.real ∧ |T.e.real - S.e.real| < eps.real ∧ |T.f.real - S.f.real| < eps.real) ∧
    (eps.real ≤ 2 ^ 1000 →
      |T.a.real - S.a.real| < (1 - 1 / 2 ^ 51) * eps.real → |T.b.real - S.b.real| < (1 - 1 / 2 ^ 51) * eps.real →
      |T.c.real - S.c.real| < (1 - 1 / 2 ^ 51) * eps.real → |T.d.real - S.d.real| < (1 - 1 / 2 ^ 51) * eps.real →
      |T.e.real - S.e.real| < (1 - 1 / 2 ^ 51) * eps.real → |T.f.real - S.f.real| < (1 - 1 / 2 ^ 51) * eps.real →
      T.almostEquals eps S = true) := by
  refine ⟨?_, fun h0 h => ?_, fun h1 a b c d e f => ?_⟩
  · unfold Affine.isRectilinear
    simp only [Bool.or_eq_true, Bool.and_eq_true, decide_eq_true_eq, pyabs_lt_iff]
  · unfold Affine.almostEquals at h
    simp only [le_pyabs_iff] at h
    have n : ∀ x y : Double, ¬ eps.real ≤ |(x - y).real| → |x.real - y.real| < eps.real := by
      intro x y hn
      by_contra hc
      exact hn (diff_ge h0 (not_lt.mp hc))
    split_ifs at h with a b c d e f
    exact ⟨n _ _ a, n _ _ b, n _ _ c, n _ _ d, n _ _ e, n _ _ f⟩
  · unfold Affine.almostEquals
    simp only [le_pyabs_iff]
    rw [if_neg (not_le.mpr (diff_lt h1 a)), if_neg (not_le.mpr (diff_lt h1 b)), if_neg (not_le.mpr (diff_lt h1 c)),
      if_neg (not_le.mpr (diff_lt h1 d)), if_neg (not_le.mpr (diff_lt h1 e)), if_neg (not_le.mpr (diff_lt h1 f))]

/-- **C79** `is_conformal`, up to the rounding of the inner product it compares. (As in the code, the product is the one of the
rows `(a, d)` and `(b, e)` of the matrix that transforms points.) -/
theorem C79_conformal (eps : Double) (T : Affine Double) (hT : WithinT (2 ^ 500) T) :
    let X := T.a.real * T.b.real + T.d.real * T.e.real
    let err := 1 / 2 ^ 51 * (|T.a.real * T.b.real| + |T.d.real * T.e.real|) + 1 / 2 ^ 1072
    (|X| < eps.real - err → T.isConformal eps = true) ∧ (eps.real + err ≤ |X| → T.isConformal eps = false) := by
  intro X err
  obtain ⟨a, b, -, d, e, -⟩ := hT
  have h : |(T.a * T.b + T.d * T.e).real - X| ≤ err := near_round (add_nonneg (abs_nonneg _) (abs_nonneg _))
    (dot_in (mul_pow_le a b) (mul_pow_le d e)).1 (by norm_num) (by norm_num)
  have t1 := abs_sub_abs_le_abs_sub (T.a * T.b + T.d * T.e).real X
  have t2 := abs_sub_abs_le_abs_sub X (T.a * T.b + T.d * T.e).real
  rw [abs_sub_comm] at t2
  clear_value err
  unfold Affine.isConformal
  constructor
  · intro hl
    rw [decide_eq_true_eq, pyabs_lt_iff]; linarith
  · intro hl
    rw [decide_eq_false_iff_not, pyabs_lt_iff, not_lt]; linarith

/-- **C79** `is_orthonormal`: conformal, and the squares of the lengths of both rows within EPSILON of one, up to rounding. -/
theorem C79_orthonormal (eps : Double) (T : Affine Double) (hT : WithinT (2 ^ 500) T) (h1 : eps.real ≤ 1) :
    let P := T.a.real * T.a.real + T.d.real * T.d.real
    let Q := T.b.real * T.b.real + T.e.real * T.e.real
    (T.isOrthonormal eps = true → T.isConformal eps = true ∧ |1 - P| < eps.real + 1 / 2 ^ 49 ∧ |1 - Q| < eps.real + 1 / 2 ^ 49) ∧
    (T.isConformal eps = true → |1 - P| < eps.real - 1 / 2 ^ 49 → |1 - Q| < eps.real - 1 / 2 ^ 49 → T.isOrthonormal eps = true) := by
  intro P Q
  obtain ⟨a, b, -, d, e, -⟩ := hT
  have row : ∀ x y : Double, |x.real| ≤ 2 ^ 500 → |y.real| ≤ 2 ^ 500 →
      (|(1 - (x * x + y * y)).real| < eps.real → |1 - (x.real * x.real + y.real * y.real)| < eps.real + 1 / 2 ^ 49) ∧
      (|1 - (x.real * x.real + y.real * y.real)| < eps.real - 1 / 2 ^ 49 → |(1 - (x * x + y * y)).real| < eps.real) := by
    intro x y hx hy
    obtain ⟨k, kb⟩ := dot_in (mul_pow_le hx hx) (mul_pow_le hy hy)
    have x0 := mul_self_nonneg x.real
    have y0 := mul_self_nonneg y.real
    rw [abs_of_nonneg x0, abs_of_nonneg y0] at k
    have s := sub_ok 1 (x * x + y * y) (by
      rw [real_one, sub_eq_add_neg]
      exact (add_pow (n := 1003) (by rw [abs_one]; exact one_le_pow₀ (by norm_num)) (by rw [abs_neg]; exact kb)).trans
        (pow_le_real (by norm_num)))
    rw [real_one] at s
    clear kb
    have hη := ηR_small
    have hη0 := ηR_pos
    have hu : uR ≤ 1 / 1000 := uR_small
    have hu0 := uR_pos
    rw [u49]
    have hR0 : 0 ≤ x.real * x.real + y.real * y.real := add_nonneg x0 y0
    generalize x.real * x.real + y.real * y.real = R at *
    generalize (x * x + y * y).real = r at *
    generalize (1 - (x * x + y * y)).real = t at *
    have k1 := abs_le.mp k
    have tri : |(1 : ℝ) - R| ≤ |1 - r| + |r - R| := abs_sub_le _ _ _ |>.trans (le_of_eq rfl)
    have tri' : |(1 : ℝ) - r| ≤ |1 - R| + |r - R| := by rw [abs_sub_comm r R]; exact abs_sub_le _ _ _
    have t1 := abs_sub_abs_le_abs_sub t (1 - r)
    have t2 := abs_sub_abs_le_abs_sub (1 - r) t
    rw [abs_sub_comm (1 - r) t] at t2
    have hR := le_abs_self (R - 1)
    rw [abs_sub_comm] at hR
    constructor
    · intro ht
      -- |1 - r| is below 2, then so are R and the errors
      have a1 : |1 - r| * (1 - uR) ≤ |t| := by linarith
      have a0 := abs_nonneg (1 - r)
      have a2 : |1 - r| ≤ 11 / 10 := by
        by_contra hc
        have : (11 / 10 : ℝ) * (1 - uR) ≤ |1 - r| * (1 - uR) := mul_le_mul_of_nonneg_right (by linarith) (by linarith)
        linarith
      have a3 : R ≤ 5 / 2 := by
        have : uR * R ≤ 1 / 1000 * R := mul_le_mul_of_nonneg_right hu hR0
        linarith
      have a4 : uR * R ≤ uR * (5 / 2) := mul_le_mul_of_nonneg_left a3 hu0.le
      have a5 : uR * |1 - r| ≤ uR * (11 / 10) := mul_le_mul_of_nonneg_left a2 hu0.le
      linarith
    · intro ht
      have a3 : R ≤ 2 := by linarith
      have a4 : uR * R ≤ uR * 2 := mul_le_mul_of_nonneg_left a3 hu0.le
      have a2 : |1 - r| ≤ 2 := by linarith
      have a5 : uR * |1 - r| ≤ uR * 2 := mul_le_mul_of_nonneg_left a2 hu0.le
      linarith
  obtain ⟨p1, p2⟩ := row T.a T.d a d
  obtain ⟨q1, q2⟩ := row T.b T.e b e
  unfold Affine.isOrthonormal
  simp only [Bool.and_eq_true, decide_eq_true_eq, pyabs_lt_iff]
  exact ⟨fun ⟨⟨c, p⟩, q⟩ => ⟨c, p1 p, q1 q⟩, fun c p q => ⟨⟨c, p2 p⟩, q2 q⟩⟩

/-! Concrete cases: EPSILON as in the code, the transform `[3 4 10 / -4 3 20]` and the point (1, 2). -/

theorem dbl_int (n : ℤ) (hn : |n| ≤ 2 ^ 53) : (dbl n).real = n := by
  have := double_float n 0 (by norm_num) (by norm_num) hn
  rw [zpow_zero, mul_one] at this
  show ((double.rnd n : ℚ) : ℝ) = n
  rw [this]; push_cast; rfl

theorem dbl_eps : (1 / 2 ^ 17 : ℝ) ≤ (dbl (1 / 100000)).real ∧ (dbl (1 / 100000)).real ≤ 1 / 2 ^ 16 := by
  have hq : (1 / 2 ^ 17 : ℚ) ≤ (dbl (1 / 100000)).val ∧ (dbl (1 / 100000)).val ≤ 1 / 2 ^ 16 := by decide +kernel
  have h1 : ((1 / 2 ^ 17 : ℚ) : ℝ) ≤ ((dbl (1 / 100000)).val : ℝ) := Rat.cast_le.mpr hq.1
  have h2 : ((dbl (1 / 100000)).val : ℝ) ≤ ((1 / 2 ^ 16 : ℚ) : ℝ) := Rat.cast_le.mpr hq.2
  push_cast at h1 h2
  exact ⟨h1, h2⟩

/-- A transform that turns and stretches, and moves. -/
def exT : Affine Double := ⟨dbl 3, dbl 4, dbl 10, dbl (-4), dbl 3, dbl 20⟩

example : WithinT (2 ^ 200) exT ∧ WithinT (2 ^ 500) exT ∧ exactDet exT = 25 ∧ detSize exT = 25 ∧ spread exT = 1 ∧
    detSize exT ≤ 2 ^ 48 * |exactDet exT| ∧ 0 < dbl (1 / 100000) ∧ (1 / 2 ^ 200 : ℝ) ≤ (dbl (1 / 100000)).real ∧
    image exT (dvec 1 2) = ⟨5, 30⟩ ∧ imageSize exT (dvec 1 2) = ⟨21, 30⟩ ∧ ∃ R, exT.invert (dbl (1 / 100000)) = .ok R := by
  have n1 : (dbl 1).real = 1 := by simpa using dbl_int 1 (by norm_num)
  have n2 : (dbl 2).real = 2 := by simpa using dbl_int 2 (by norm_num)
  have n3 : (dbl 3).real = 3 := by simpa using dbl_int 3 (by norm_num)
  have n4 : (dbl 4).real = 4 := by simpa using dbl_int 4 (by norm_num)
  have m4 : (dbl (-4)).real = -4 := by simpa using dbl_int (-4) (by norm_num)
  have n10 : (dbl 10).real = 10 := by simpa using dbl_int 10 (by norm_num)
  have n20 : (dbl 20).real = 20 := by simpa using dbl_int 20 (by norm_num)
  obtain ⟨h1, h2⟩ := dbl_eps
  have hw : ∀ n : ℕ, 5 ≤ n → WithinT (2 ^ n) exT := by
    intro n hn
    have h32 : (32 : ℝ) ≤ 2 ^ n := le_trans (by norm_num) (pow_le_real hn)
    refine ⟨?_, ?_, ?_, ?_, ?_, ?_⟩ <;> simp only [exT, n3, n4, m4, n10, n20] <;> refine le_trans ?_ h32 <;> norm_num
  have hd : exactDet exT = 25 := by simp only [exactDet, exT, n3, n4, m4]; norm_num
  have hs : detSize exT = 25 := by simp only [detSize, exT, n3, n4, m4]; norm_num
  have e0 : (0 : Double) < dbl (1 / 100000) := by
    rw [← real_lt, real_zero]; exact lt_of_lt_of_le (by norm_num) h1
  refine ⟨hw _ (by norm_num), hw _ (by norm_num), hd, hs, ?_, ?_, e0, (inv_pow_le (by norm_num)).trans h1, ?_, ?_, ?_⟩
  · rw [spread, hs, hd]; norm_num
  · rw [hs, hd]; norm_num
  · simp only [image, exT, dvec, n1, n2, n3, n4, m4, n10, n20]; norm_num
  · simp only [imageSize, exT, dvec, n1, n2, n3, n4, m4, n10, n20]; norm_num
  · refine (C79_inverse_raises _ e0 exT (hw _ (by norm_num))).2.2 ?_
    rw [hs, hd]
    have : (1 : ℝ) / 2 ^ 1072 ≤ 1 / 2 ^ 1 := inv_pow_le (by norm_num)
    generalize (1 : ℝ) / 2 ^ 1072 = g at *
    norm_num at *
    linarith

end Planar
