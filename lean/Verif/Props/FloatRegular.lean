import Verif.Lemmas.RadialNear
import Verif.Lemmas.FloatMult
import Verif.Props.FloatShapes
/-
C82: regular polygons in double precision contain the points of the exact regular polygon, except near the edges.
-/
set_option linter.unusedSectionVars false
namespace Planar
open Spec

theorem real_half : ((1 / (1 + 1) : Double)).real = 1 / 2 := by
  have : (1 / (1 + 1) : Double).val = 1 / 2 := by decide +kernel
  rw [Fl.real, this]; norm_num

/-- A coordinate of the vector from `c` to the middle of two points. -/
theorem mid_coord (x y c : Double) {B : ℝ} (hB : 1 / 2 ^ 400 ≤ B) (hB' : B ≤ 2 ^ 503) (hx : |x.real| ≤ B) (hy : |y.real| ≤ B) (hc : |c.real| ≤ B) :
    |((x + y) * (1 / (1 + 1)) - c).real - ((x.real + y.real) / 2 - c.real)| ≤ 5 * uR * B := by
  have hη : 1000 * ηR ≤ uR * B := (ηR_le (show 400 ≤ 1012 by norm_num)).trans (mul_le_mul_of_nonneg_left hB uR_pos.le)
  have e504 : (2 : ℝ) ^ 504 = 2 * 2 ^ 503 := by rw [pow_succ]; ring
  have e505 : (2 : ℝ) ^ 505 = 4 * 2 ^ 503 := by rw [pow_add 2 503 2]; norm_num; ring
  have B0 : 0 < B := lt_of_lt_of_le (by positivity) hB
  have hu := uR_pos
  have hu' := uR_small
  have hη0 := ηR_pos
  have uB : uR * B ≤ 1 / 1000 * B := mul_le_mul_of_nonneg_right hu' B0.le
  have uB0 := mul_pos hu B0
  have b1 : |x.real + y.real| ≤ 2 * B := (abs_add_le _ _).trans (by linarith)
  have h1 := add_ok x y ((b1.trans (by rw [e504]; linarith only [hB'])).trans (pow_le_real (show 504 ≤ 1023 by norm_num)))
  have u1 := mul_le_mul_of_nonneg_left b1 hu.le
  have b2 : |(x + y).real| ≤ 2 * B + 201 / 100 * (uR * B) := by
    have := abs_sub_abs_le_abs_sub (x + y).real (x.real + y.real)
    linarith only [this, h1, u1, b1, hη, uB0]
  have b3 : |(x + y).real * (1 / (1 + 1) : Double).real| ≤ B + 101 / 100 * (uR * B) := by
    rw [real_half, abs_mul, abs_of_pos (show (0 : ℝ) < 1 / 2 by norm_num)]; linarith only [b2, uB0]
  have h2 := mul_ok (x + y) (1 / (1 + 1)) ((b3.trans (by rw [e504]; exact le_trans (b := 2 * B) (by linarith only [uB, B0]) (mul_le_mul_of_nonneg_left hB' (by norm_num)))).trans (pow_le_real (show 504 ≤ 1023 by norm_num)))
  rw [real_half] at h2 b3
  generalize ((x + y) * (1 / (1 + 1))) = m at *
  have u2 := mul_le_mul_of_nonneg_left b3 hu.le
  have uuB := mul_le_mul_of_nonneg_left uB hu.le
  have u3 : uR * |(x + y).real * (1 / 2)| ≤ 102 / 100 * (uR * B) := by linarith only [u2, uuB, uB0]
  have b4 : |m.real - (x.real + y.real) / 2| ≤ 203 / 100 * (uR * B) + 2 * ηR := by
    have t := abs_sub_le m.real ((x + y).real * (1 / 2)) ((x.real + y.real) / 2)
    have e : (x + y).real * (1 / 2) - (x.real + y.real) / 2 = ((x + y).real - (x.real + y.real)) * (1 / 2) := by ring
    rw [e, abs_mul, abs_of_pos (show (0 : ℝ) < 1 / 2 by norm_num)] at t
    linarith only [t, h2, u3, h1, u1, hη0, uB0]
  have b5 : |(x.real + y.real) / 2| ≤ B := by rw [abs_div, abs_of_pos (show (0 : ℝ) < 2 by norm_num)]; linarith only [b1]
  have b6 : |m.real - c.real| ≤ 2 * B + 3 * (uR * B) := by
    have t1 := abs_sub m.real c.real
    have t2 := abs_sub_abs_le_abs_sub m.real ((x.real + y.real) / 2)
    linarith only [t1, t2, b4, b5, hc, hη, uB0]
  have h3 := sub_ok m c ((b6.trans (by rw [e505]; exact le_trans (b := 4 * B) (by linarith only [uB, B0]) (mul_le_mul_of_nonneg_left hB' (by norm_num)))).trans (pow_le_real (show 505 ≤ 1023 by norm_num)))
  have u4 := mul_le_mul_of_nonneg_left b6 hu.le
  have t := abs_sub_le (m - c).real (m.real - c.real) ((x.real + y.real) / 2 - c.real)
  rw [sub_sub_sub_cancel_right] at t
  linarith only [t, h3, u4, b4, uuB, uB0, hη]

variable [PyMath Double] [SqrtOk]

/-- The distance from `c` to the middle of two points. -/
theorem mid_near (v w c : Vec2 Double) {B : ℝ} (hB : 1 / 2 ^ 400 ≤ B) (hB' : B ≤ 2 ^ 503) (hv : Within B v) (hw : Within B w) (hc : Within B c) :
    |((v + w).smul (1 / (1 + 1)) - c).length.real -
      gap ⟨(v.x.real + w.x.real) / 2, (v.y.real + w.y.real) / 2⟩ (toReal c)| ≤ 25 * uR * B := by
  have B0 : 0 < B := lt_of_lt_of_le (by positivity) hB
  have hu := uR_pos
  have hu' := uR_small
  have uB : uR * B ≤ 1 / 1000 * B := mul_le_mul_of_nonneg_right hu' B0.le
  have uB0 := mul_pos hu B0
  have uuB := mul_le_mul_of_nonneg_left uB hu.le
  have bd : ∀ x y c : ℝ, |x| ≤ B → |y| ≤ B → |c| ≤ B → |(x + y) / 2 - c| ≤ 2 * B := by
    intro x y c hx hy hc
    have t1 := abs_sub ((x + y) / 2) c
    rw [abs_div, abs_of_pos (show (0 : ℝ) < 2 by norm_num)] at t1
    have t2 := abs_add_le x y
    linarith
  have e510 : (2 : ℝ) ^ 510 = 128 * 2 ^ 503 := by rw [pow_add 2 503 7]; norm_num; ring
  have h := length_near (t := (v + w).smul (1 / (1 + 1)) - c) (mid_coord v.x w.x c.x hB hB' hv.1 hw.1 hc.1)
    (mid_coord v.y w.y c.y hB hB' hv.2 hw.2 hc.2) (bd _ _ _ hv.1 hw.1 hc.1) (bd _ _ _ hv.2 hw.2 hc.2)
    (by rw [e510]; exact le_trans (b := 128 * B) (by linarith only [uB, B0]) (mul_le_mul_of_nonneg_left hB' (by norm_num)))
  have hθ : θR ≤ uR * B := by
    have : θR ≤ uR * (1 / 2 ^ 400) := by
      unfold θR uR
      rw [← inv_pow_split]; exact inv_pow_le (by norm_num)
    exact this.trans (mul_le_mul_of_nonneg_left hB hu.le)
  refine le_trans h ?_
  linarith only [uuB, uB0, hθ]

variable [TrigOk]

/-- What `Polygon.regular` stores. -/
theorem regular_kept {n : ℕ} (hn : 3 ≤ n) (hn' : n ≤ 2 ^ 40) {r a : Double} {c : Vec2 Double} {s : Polygon Double}
    (h : Polygon.regular (n : ℤ) r c a = .ok s) :
    Kept s.verts (some (some c)) (some (Polygon.midRadius s.verts c * Polygon.midRadius s.verts c)) (some (r * r)) s ∧
    s.verts = Polygon.regularVerts ((PyMath.ofInt ((360 : ℕ) : ℤ) : Double) / PyMath.ofInt (n : ℤ)) r c n a := by
  obtain ⟨h0, -⟩ := step_near 360 n le_rfl (by omega) hn'
  unfold Polygon.regular pydiv at h
  simp only [h0, bind, Except.bind, Int.toNat_natCast, Bool.false_eq_true, if_false, pure, Except.pure] at h
  split at h
  · simp at h
  · rename_i q hq
    simp only [Except.ok.injEq] at h
    have k := Kept.new (List.map_id'' Vec2.copy_fl _) hq
    have kv := k.verts
    rw [← h]
    refine ⟨⟨rfl, ?_, rfl, rfl, ?_, ?_⟩, kv⟩
    · simp only [Vec2.copy_fl]
    · intro pls e
      simp only at e ⊢
      rw [kv]; exact k.ypl pls e
    · intro x e
      simp only at e ⊢
      rw [kv]; exact k.bbox x e

/-- Where the computed vertices are: within `n * M / 2 ^ 46` of the exact ones. -/
theorem regular_moved {n : ℕ} (hn : 3 ≤ n) (hn' : n ≤ 2 ^ 40) {M : ℝ} (hM : 1 / 2 ^ 300 ≤ M) (hM' : M ≤ 2 ^ 500) {r a : Double}
    {c : Vec2 Double} (ha : |a.real| ≤ 720) (hr : |r.real| ≤ M) (hc : Within M c) {s : Polygon Double}
    (h : Polygon.regular (n : ℤ) r c a = .ok s) :
    s.verts.length = n ∧ MovedBy (n * M / 2 ^ 46) s.verts (regularPoints n (toReal c) r.real a.real) ∧
    ∀ v ∈ s.verts, Within (3 * M) v := by
  obtain ⟨P, hP, hl, hv⟩ := C81_regular n hn hn' r a c ha (hr.trans hM') ⟨hc.1.trans hM', hc.2.trans hM'⟩
  rw [h] at hP
  injection hP with hP
  subst hP
  have M0 : 0 < M := lt_of_lt_of_le (by positivity) hM
  have hη : 1 / (2 : ℝ) ^ 1073 ≤ 1 / 2 ^ 52 * M := by
    refine le_trans ?_ (mul_le_mul_of_nonneg_left hM (by positivity))
    rw [← inv_pow_split]; exact inv_pow_le (by norm_num)
  have n3 : (3 : ℝ) ≤ n := by exact_mod_cast hn
  have n40 : (n : ℝ) ≤ 2 ^ 40 := by exact_mod_cast hn'
  have one : ∀ i < n, ∀ v, NearCircle c r (a.real + 360 * i / n) i v →
      |v.x.real - (circ (toReal c) r.real (a.real + 360 * i / n)).x| ≤ n * M / 2 ^ 47 ∧
      |v.y.real - (circ (toReal c) r.real (a.real + 360 * i / n)).y| ≤ n * M / 2 ^ 47 := by
    intro i hi v hv
    have hi' : (i : ℝ) + 1 ≤ n := by exact_mod_cast hi
    have i0 : (0 : ℝ) ≤ i := by positivity
    obtain ⟨h1, h2, -⟩ := hv
    have k : ∀ x, |x| ≤ M → (i / 2 ^ 48 + 1 / 2 ^ 47) * |r.real| + 1 / 2 ^ 52 * |x| + 1 / 2 ^ 1073 ≤ n * M / 2 ^ 47 := by
      intro x hx
      have a1 : (i / 2 ^ 48 + 1 / 2 ^ 47) * |r.real| ≤ (i / 2 ^ 48 + 1 / 2 ^ 47) * M :=
        mul_le_mul_of_nonneg_left hr (by positivity)
      have a2 : (1 : ℝ) / 2 ^ 52 * |x| ≤ 1 / 2 ^ 52 * M := mul_le_mul_of_nonneg_left hx (by positivity)
      have a3 : ((i : ℝ) + 1) * M ≤ n * M := mul_le_mul_of_nonneg_right hi' M0.le
      have a4 : 3 * M ≤ n * M := mul_le_mul_of_nonneg_right n3 M0.le
      have e : ((i : ℝ) / 2 ^ 48 + 1 / 2 ^ 47) * M = ((i + 1) * M + M) / 2 ^ 48 := by ring
      rw [e] at a1
      generalize 1 / (2 : ℝ) ^ 1073 = z at *
      clear hM hM' h1 h2 e
      norm_num at a1 a2 hη ⊢
      linarith
    exact ⟨h1.trans (k _ hc.1), h2.trans (k _ hc.2)⟩
  refine ⟨hl, ?_, ?_⟩
  · unfold MovedBy
    rw [List.forall₂_iff_get]
    refine ⟨by rw [hl]; simp [regularPoints], fun i h1 h2 => ?_⟩
    have hi : i < n := by rw [← hl]; exact h1
    obtain ⟨v, hv1, hv2⟩ := hv i hi
    have e1 : s.verts.get ⟨i, h1⟩ = v := by
      rw [List.get_eq_getElem]
      rw [List.getElem?_eq_getElem h1] at hv1
      exact Option.some.inj hv1
    have e2 : (regularPoints n (toReal c) r.real a.real).get ⟨i, h2⟩ = circ (toReal c) r.real (a.real + 360 * i / n) := by
      simp only [regularPoints, List.get_eq_getElem, List.getElem_map, List.getElem_range]
    rw [e1, e2]
    obtain ⟨k1, k2⟩ := one i hi v hv2
    refine (gap_le_sum _ _).trans ((add_le_add k1 k2).trans (le_of_eq ?_))
    ring
  · intro v hv'
    obtain ⟨i, h1, rfl⟩ := List.getElem_of_mem hv'
    have hi : i < n := by rw [← hl]; exact h1
    obtain ⟨v, hv1, hv2⟩ := hv i hi
    have e1 : s.verts[i] = v := by
      rw [List.getElem?_eq_getElem h1] at hv1
      exact Option.some.inj hv1
    rw [e1]
    obtain ⟨k1, k2⟩ := one i hi v hv2
    have small : (n : ℝ) * M / 2 ^ 47 ≤ M := by
      have := mul_le_mul_of_nonneg_right n40 M0.le
      clear hM hM'
      norm_num at this ⊢
      linarith
    have fin : ∀ (x y k K : ℝ), |x - (y + r.real * K)| ≤ n * M / 2 ^ 47 → |y| ≤ M → |K| ≤ 1 → |x| ≤ 3 * M := by
      intro x y k K h1 h2 h3
      have t1 := abs_sub_abs_le_abs_sub x (y + r.real * K)
      have t2 := abs_add_le y (r.real * K)
      have t3 : |r.real * K| ≤ M := by
        rw [abs_mul]; exact (mul_le_of_le_one_right (abs_nonneg _) h3).trans hr
      linarith only [h1, h2, t1, t2, t3, small]
    exact ⟨fin _ _ 0 _ k1 hc.1 (abs_cosDeg _), fin _ _ 0 _ k2 hc.2 (abs_sinDeg _)⟩

/-- The heights of the computed vertices, before the centre is added. -/
theorem regular_rise {n : ℕ} (hn : 3 ≤ n) (hn' : n ≤ 2 ^ 40) {r a : Double} {c : Vec2 Double} (ha : |a.real| ≤ 720)
    (hr : |r.real| ≤ 2 ^ 500) (hr' : 1 / 2 ^ 400 ≤ |r.real|) {s : Polygon Double} (h : Polygon.regular (n : ℤ) r c a = .ok s) :
    List.Forall₂ (fun v W => ∃ A : Double, v.y = A + c.y ∧ |A.real - (W.y - c.y.real)| ≤ |r.real| / 100)
      s.verts (regularPoints n (toReal c) r.real a.real) := by
  obtain ⟨-, hv⟩ := regular_kept hn hn' h
  obtain ⟨-, hs⟩ := step_near 360 n le_rfl (by omega) hn'
  obtain ⟨hl, hat⟩ := regularVerts_at ((PyMath.ofInt ((360 : ℕ) : ℤ) : Double) / PyMath.ofInt (n : ℤ)) r c n a
  rw [← hv] at hl hat
  rw [List.forall₂_iff_get]
  refine ⟨by rw [hl]; simp [regularPoints], fun i h1 h2 => ?_⟩
  have hi : i < n := by rw [← hl]; exact h1
  have e1 := hat i hi
  rw [List.getElem?_eq_getElem h1] at e1
  have e1 := Option.some.inj e1
  have e2 : (regularPoints n (toReal c) r.real a.real).get ⟨i, h2⟩ = circ (toReal c) r.real (a.real + 360 * i / n) := by
    simp only [regularPoints, List.get_eq_getElem, List.getElem_map, List.getElem_range]
  rw [List.get_eq_getElem, e1, e2]
  refine ⟨_, rfl, ?_⟩
  have n3 : (3 : ℝ) ≤ n := by exact_mod_cast hn
  have n40 : (n : ℝ) ≤ 2 ^ 40 := by exact_mod_cast hn'
  push_cast at hs
  obtain ⟨a1, a2⟩ := angles_near a _ (360 / n) n (n40.trans (by norm_num)) ha (by positivity) (by rw [mul_div_cancel₀ _ (by positivity)])
    (by rw [div_le_iff₀ (by linarith)]; linarith) hs i hi.le
  obtain ⟨-, ts⟩ := trig_close a1
  have hα : ((fun t => t + ((PyMath.ofInt ((360 : ℕ) : ℤ) : Double) / PyMath.ofInt (n : ℤ)))^[i] a).Finite :=
    finite_of (M := 1200) (lt_of_le_of_lt (by norm_num) (pow_lt_real (show 11 < 1024 by norm_num))) a2
  obtain ⟨-, hk⟩ := cosSinDeg_near _ hα
  generalize ((fun t => t + ((PyMath.ofInt ((360 : ℕ) : ℤ) : Double) / PyMath.ofInt (n : ℤ)))^[i] a) = α at *
  rw [show (i : ℝ) * (360 / n) = 360 * i / n by ring] at ts
  generalize (cosSinDeg α).2 = k at *
  have hb := abs_sinDeg (a.real + 360 * (i : ℝ) / n)
  have hiu : (i : ℝ) * (1401 * uR) * (35 / 2000) ≤ 4 / 1000 := by
    have hi' : (i : ℝ) ≤ 2 ^ 40 := le_trans (by exact_mod_cast hi.le) n40
    calc (i : ℝ) * (1401 * uR) * (35 / 2000) = i * (1401 * 35 / 2000 * uR) := by ring
      _ ≤ 2 ^ 40 * (1401 * 35 / 2000 * uR) := mul_le_mul_of_nonneg_right hi' (by have := uR_pos; positivity)
      _ ≤ 4 / 1000 := by norm_num [uR]
  have h35 : 35 * uR ≤ 1 / 1000 := by norm_num [uR]
  have hη : ηR ≤ 1 / 1000 * |r.real| := by
    have h1 := ηR_le (show 400 ≤ 1012 by norm_num)
    have h2 : uR * (1 / 2 ^ 400) ≤ 1 * |r.real| := mul_le_mul (by have := uR_small; linarith) hr' (by positivity) (by norm_num)
    linarith only [h1, h2]
  have e3 : (circ (toReal c) r.real (a.real + 360 * i / n)).y - c.y.real = r.real * sinDeg (a.real + 360 * i / n) := by
    simp only [circ, toReal]; ring
  rw [e3]
  generalize sinDeg (a.real + 360 * (i : ℝ) / n) = K at *
  have hkK : |k.real - K| ≤ 5 / 1000 := by
    have := abs_sub_le k.real (sinDeg α.real) K
    linarith only [this, hk, ts, hiu, h35]
  have hk1 : |k.real| ≤ 101 / 100 := by
    have := abs_sub_abs_le_abs_sub k.real K
    linarith only [this, hkK, hb]
  have r0 := abs_nonneg r.real
  have hkr : |k.real * r.real| ≤ 101 / 100 * |r.real| := by rw [abs_mul]; exact mul_le_mul_of_nonneg_right hk1 r0
  have hm := mul_ok k r ((pow_104 hr (hkr.trans (by linarith only [r0]))).trans (pow_le_real (by norm_num)))
  have hm' := mul_le_mul_of_nonneg_left hkr uR_pos.le
  have hu1 := mul_le_mul_of_nonneg_right uR_small r0
  have t := abs_sub_le (k * r).real (k.real * r.real) (r.real * K)
  have e4 : k.real * r.real - r.real * K = (k.real - K) * r.real := by ring
  rw [e4, abs_mul] at t
  have := mul_le_mul_of_nonneg_right hkK r0
  linarith only [t, this, hm, hm', hu1, hη, r0]

/-- An edge of a regular polygon that is nearly horizontal is far above or below the centre. -/
theorem level_edge {n : ℕ} (hn : 5 ≤ n) {M r d : ℝ} (hM : 0 < M) (hr' : n ^ 2 * M / 2 ^ 40 ≤ |r|) (hd : d ≤ 3 * (n * M / 2 ^ 46)) (θ : ℝ)
    (h : |r * sinDeg (θ + 360 / n) - r * sinDeg θ| ≤ d) : 7 / 10 ≤ |sinDeg θ| ∧ 7 / 10 ≤ |sinDeg (θ + 360 / n)| := by
  have n5 : (5 : ℝ) ≤ n := by exact_mod_cast hn
  have n0 : (0 : ℝ) < n := by linarith
  have hpi := Real.pi_pos
  obtain ⟨m, hm⟩ : ∃ m, m = θ + 180 / n := ⟨_, rfl⟩
  have hsin : 2 / (n : ℝ) ≤ sinDeg (180 / n) := by
    unfold sinDeg
    have e : (180 : ℝ) / n * (Real.pi / 180) = Real.pi / n := by field_simp
    rw [e]
    have := Real.mul_le_sin (x := Real.pi / n) (by positivity) (div_le_div_of_nonneg_left hpi.le (by norm_num) (by linarith))
    refine le_trans (le_of_eq ?_) this
    field_simp
  have hs1 : sinDeg (180 / n) ≤ 1 := (le_abs_self _).trans (abs_sinDeg _)
  have k8 := cosDeg_36 hn
  have k1 := cosDeg_le_one (180 / n)
  have e1 : sinDeg (θ + 360 / n) = sinDeg m * cosDeg (180 / n) + cosDeg m * sinDeg (180 / n) := by
    rw [← sinDeg_add, hm]; congr 1; ring
  have e2 : sinDeg θ = sinDeg m * cosDeg (180 / n) - cosDeg m * sinDeg (180 / n) := by
    have := sinDeg_add m (-(180 / n))
    have c1 : cosDeg (-(180 / (n : ℝ))) = cosDeg (180 / n) := by unfold cosDeg; rw [neg_mul, Real.cos_neg]
    have c2 : sinDeg (-(180 / (n : ℝ))) = - sinDeg (180 / n) := by unfold sinDeg; rw [neg_mul, Real.sin_neg]
    rw [c1, c2, hm] at this
    rw [show θ = θ + 180 / n + -(180 / n) by ring, this, hm]; ring
  rw [e1, e2] at h ⊢
  have hq := cosDeg_sq_add m
  have r0 : 0 < |r| := lt_of_lt_of_le (by positivity) hr'
  have h1 : |r| * (2 * |cosDeg m| * sinDeg (180 / n)) ≤ d := by
    have e : r * (sinDeg m * cosDeg (180 / n) + cosDeg m * sinDeg (180 / n)) - r * (sinDeg m * cosDeg (180 / n) - cosDeg m * sinDeg (180 / n)) =
        r * (2 * cosDeg m * sinDeg (180 / n)) := by ring
    rw [e, abs_mul, abs_mul, abs_mul, abs_of_pos (show (0 : ℝ) < 2 by norm_num), abs_of_nonneg (le_trans (by positivity) hsin)] at h
    exact h
  have hC : |cosDeg m| ≤ 1 / 80 := by
    have h2 : |r| * (2 * |cosDeg m| * (2 / n)) ≤ d :=
      le_trans (mul_le_mul_of_nonneg_left (mul_le_mul_of_nonneg_left hsin (by positivity)) r0.le) h1
    have h3 : |r| * (4 * |cosDeg m|) ≤ 3 * (n ^ 2 * M / 2 ^ 46) := by
      have e : |r| * (4 * |cosDeg m|) = n * (|r| * (2 * |cosDeg m| * (2 / n))) := by field_simp; ring
      rw [e]
      calc (n : ℝ) * (|r| * (2 * |cosDeg m| * (2 / n))) ≤ n * (3 * (n * M / 2 ^ 46)) := mul_le_mul_of_nonneg_left (h2.trans hd) n0.le
        _ = 3 * (n ^ 2 * M / 2 ^ 46) := by ring
    have h4 : |r| * (4 * |cosDeg m|) ≤ |r| * (3 / 64) := by
      refine h3.trans ?_
      have : 3 * ((n : ℝ) ^ 2 * M / 2 ^ 46) = n ^ 2 * M / 2 ^ 40 * (3 / 64) := by ring
      rw [this]
      exact mul_le_mul_of_nonneg_right hr' (by norm_num)
    have := le_of_mul_le_mul_left h4 r0
    linarith
  have hS : 99 / 100 ≤ |sinDeg m| := by
    have hcc : cosDeg m * cosDeg m ≤ 1 / 6400 := by
      rw [← abs_mul_abs_self]; nlinarith [abs_nonneg (cosDeg m)]
    have hss := abs_mul_abs_self (sinDeg m)
    nlinarith [abs_nonneg (sinDeg m)]
  have hSk : 792 / 1000 ≤ |sinDeg m * cosDeg (180 / n)| := by
    rw [abs_mul, abs_of_nonneg (show 0 ≤ cosDeg (180 / n) by linarith)]; nlinarith
  have hCs : |cosDeg m * sinDeg (180 / n)| ≤ 1 / 80 := by
    rw [abs_mul, abs_of_nonneg (le_trans (by positivity) hsin)]
    exact (mul_le_of_le_one_right (abs_nonneg _) hs1).trans hC
  constructor
  · have := abs_sub_abs_le_abs_sub (sinDeg m * cosDeg (180 / n)) (cosDeg m * sinDeg (180 / n))
    linarith
  · have := abs_sub_abs_le_abs_sub (sinDeg m * cosDeg (180 / n)) (-(cosDeg m * sinDeg (180 / n)))
    rw [abs_neg, sub_neg_eq_add] at this
    linarith

/-- The radii that `Polygon.regular` stores decide only what they should, up to `n * M / 2 ^ 44`. -/
theorem regular_radii {n : ℕ} (hn : 5 ≤ n) {M : ℝ} (hM : 1 / 2 ^ 300 ≤ M) (hM' : M ≤ 2 ^ 500)
    {r a : ℝ} {c q : Vec2 Double} (hr : |r| ≤ M) (hr' : n * M / 2 ^ 40 ≤ |r|) (hc : Within M c) (hq : Within M q)
    {v w : Vec2 Double} (hv : Within (3 * M) v) (hw : Within (3 * M) w)
    (gv : gap (toReal v) (circ (toReal c) r a) ≤ n * M / 2 ^ 46)
    (gw : gap (toReal w) (circ (toReal c) r (a + 360 / n)) ≤ n * M / 2 ^ 46) :
    ((c - q).length2 < ((v + w).smul (1 / (1 + 1)) - c).length * ((v + w).smul (1 / (1 + 1)) - c).length →
      gap (toReal q) (toReal c) < |r| * cosDeg (180 / n) + n * M / 2 ^ 44) ∧
    ∀ R : Double, R.real = r → (c - q).length2 > R * R → |r| - n * M / 2 ^ 44 < gap (toReal q) (toReal c) := by
  have M0 : 0 < M := lt_of_lt_of_le (by positivity) hM
  have n5 : (5 : ℝ) ≤ n := by exact_mod_cast hn
  have nM : 5 * M ≤ n * M := mul_le_mul_of_nonneg_right n5 M0.le
  have hu := uR_pos
  have hu' := uR_small
  have uM0 := mul_pos hu M0
  have uM : uR * M ≤ 1 / 1000 * M := mul_le_mul_of_nonneg_right hu' M0.le
  have r0 : 0 < |r| := lt_of_lt_of_le (by positivity) hr'
  have k1 := cosDeg_le_one (180 / n)
  have k8 := cosDeg_36 hn
  have rk : |r| * cosDeg (180 / n) ≤ |r| := mul_le_of_le_one_right r0.le k1
  have rk' : |r| * (8 / 10) ≤ |r| * cosDeg (180 / n) := mul_le_mul_of_nonneg_left k8 r0.le
  have e53 : uR * M = M / 2 ^ 53 := by unfold uR; ring
  have hg2 := gap2_near (v := c) (w := q) (n := 500) (by norm_num) ⟨hc.1.trans hM', hc.2.trans hM'⟩ ⟨hq.1.trans hM', hq.2.trans hM'⟩
  have hg2 : |((c - q).length2).real - gap (toReal q) (toReal c) * gap (toReal q) (toReal c)| ≤
      5 * uR * (gap (toReal q) (toReal c) * gap (toReal q) (toReal c)) + 4 * ηR := by
    rw [Polygon.gap_comm (toReal q)]; exact hg2
  have h500 : 1 / (2 : ℝ) ^ 500 ≤ |r| / 2 := by
    refine (inv_pow_le (show 350 ≤ 500 by norm_num)).trans ?_
    have e : (1 : ℝ) / 2 ^ 350 = 1 / 2 ^ 50 * (1 / 2 ^ 300) := by rw [← inv_pow_split]
    rw [e]
    have h1 : 1 / (2 : ℝ) ^ 50 * (1 / 2 ^ 300) ≤ 1 / 2 ^ 50 * M := mul_le_mul_of_nonneg_left hM (by positivity)
    refine h1.trans ?_
    clear hM hM' h1 e
    norm_num at hr' ⊢
    linarith
  have g0 := gap_nonneg (toReal q) (toReal c)
  constructor
  · intro hlt
    by_contra hge
    push Not at hge
    -- the middle of the edge
    have hB' : 3 * M ≤ 2 ^ 503 := by
      have : (2 : ℝ) ^ 503 = 8 * 2 ^ 500 := by rw [pow_add 2 500 3]; norm_num; ring
      rw [this]
      exact le_trans (b := 8 * M) (by linarith only [M0]) (mul_le_mul_of_nonneg_left hM' (by norm_num))
    have hB : 1 / (2 : ℝ) ^ 400 ≤ 3 * M := by
      refine (inv_pow_le (show 300 ≤ 400 by norm_num)).trans (hM.trans (by linarith only [M0]))
    have hm := mid_near v w c hB hB' hv hw ⟨hc.1.trans (by linarith only [M0]), hc.2.trans (by linarith only [M0])⟩
    have hmid : |gap ⟨(v.x.real + w.x.real) / 2, (v.y.real + w.y.real) / 2⟩ (toReal c) - |r| * cosDeg (180 / n)| ≤ n * M / 2 ^ 46 := by
      obtain ⟨A, hA⟩ : ∃ A, A = circ (toReal c) r a := ⟨_, rfl⟩
      obtain ⟨B, hBB⟩ : ∃ B, B = circ (toReal c) r (a + 360 / n) := ⟨_, rfl⟩
      have hex : gap ⟨(A.x + B.x) / 2, (A.y + B.y) / 2⟩ (toReal c) = |r| * cosDeg (180 / n) := by
        have h1 := d2_edge (toReal c) r r a (360 / n) (1 / 2) ⟨(A.x + B.x) / 2, (A.y + B.y) / 2⟩
          (by rw [hA, hBB]; simp only; ring) (by rw [hA, hBB]; simp only; ring)
        have hh := cosDeg_half (360 / n)
        rw [show (360 : ℝ) / n / 2 = 180 / n by ring] at hh
        have h2 : gap ⟨(A.x + B.x) / 2, (A.y + B.y) / 2⟩ (toReal c) * gap ⟨(A.x + B.x) / 2, (A.y + B.y) / 2⟩ (toReal c) =
            (|r| * cosDeg (180 / n)) * (|r| * cosDeg (180 / n)) := by
          rw [gap_d2, h1, show (|r| * cosDeg (180 / n)) * (|r| * cosDeg (180 / n)) = (|r| * |r|) * (cosDeg (180 / n) * cosDeg (180 / n)) by ring,
            abs_mul_abs_self, hh]
          ring
        exact (mul_self_inj (gap_nonneg _ _) (by positivity)).mp h2
      rw [← hex]
      rw [← hA] at gv
      rw [← hBB] at gw
      obtain ⟨W, ⟨t, -, -, -, -⟩, -⟩ := near_between (A := A) (B := B) (p := toReal v) (q := toReal w) (P := A) (Q := B)
        ⟨0, le_rfl, zero_le_one, by simp, by simp⟩ ⟨1, zero_le_one, le_rfl, by simp, by simp⟩ gv gw (t := 1 / 2) (by norm_num) (by norm_num)
      have tri : gap ⟨(v.x.real + w.x.real) / 2, (v.y.real + w.y.real) / 2⟩ ⟨(A.x + B.x) / 2, (A.y + B.y) / 2⟩ ≤ n * M / 2 ^ 46 := by
        have h1 := gap_triangle ⟨(v.x.real + w.x.real) / 2, (v.y.real + w.y.real) / 2⟩ ⟨(A.x + w.x.real) / 2, (A.y + w.y.real) / 2⟩
          ⟨(A.x + B.x) / 2, (A.y + B.y) / 2⟩
        have half : ∀ x y : ℝ, √(x / 2 * (x / 2) + y / 2 * (y / 2)) = √(x * x + y * y) / 2 := by
          intro x y
          rw [show x / 2 * (x / 2) + y / 2 * (y / 2) = (x * x + y * y) / (2 * 2) by ring, Real.sqrt_div (by nlinarith [mul_self_nonneg x, mul_self_nonneg y]),
            Real.sqrt_mul_self (by norm_num)]
        have h2 : gap ⟨(v.x.real + w.x.real) / 2, (v.y.real + w.y.real) / 2⟩ ⟨(A.x + w.x.real) / 2, (A.y + w.y.real) / 2⟩ =
            gap (toReal v) A / 2 := by
          unfold gap vlen
          rw [← half]
          simp only [toReal]
          congr 1; ring
        have h3 : gap ⟨(A.x + w.x.real) / 2, (A.y + w.y.real) / 2⟩ ⟨(A.x + B.x) / 2, (A.y + B.y) / 2⟩ = gap (toReal w) B / 2 := by
          unfold gap vlen
          rw [← half]
          simp only [toReal]
          congr 1; ring
        rw [h2, h3] at h1
        linarith only [h1, gv, gw]
      have t1 := gap_triangle ⟨(v.x.real + w.x.real) / 2, (v.y.real + w.y.real) / 2⟩ ⟨(A.x + B.x) / 2, (A.y + B.y) / 2⟩ (toReal c)
      have t2 := gap_triangle ⟨(A.x + B.x) / 2, (A.y + B.y) / 2⟩ ⟨(v.x.real + w.x.real) / 2, (v.y.real + w.y.real) / 2⟩ (toReal c)
      rw [Polygon.gap_comm ⟨(A.x + B.x) / 2, (A.y + B.y) / 2⟩ ⟨(v.x.real + w.x.real) / 2, (v.y.real + w.y.real) / 2⟩] at t2
      rw [abs_le]
      constructor <;> linarith only [t1, t2, tri]
    generalize ((v + w).smul (1 / (1 + 1)) - c).length = m at *
    generalize gap ⟨(v.x.real + w.x.real) / 2, (v.y.real + w.y.real) / 2⟩ (toReal c) = gm at *
    have m1 := (abs_le.mp hm).1
    have m2 := (abs_le.mp hm).2
    have m3 := (abs_le.mp hmid).1
    have m4 := (abs_le.mp hmid).2
    have hm0 : 0 ≤ m.real := by
      clear hM hM' hB hB' h500
      norm_num at hr' m3
      norm_num [uR] at m1
      linarith
    have hmb : m.real ≤ 3 * M := by
      clear hM hM' hB hB' h500
      have hr2 := hr'.trans hr
      norm_num at hr2 m4
      norm_num [uR] at m2
      linarith
    have hsq := square_near (a := m) (by
      rw [abs_of_nonneg hm0]
      exact hmb.trans (hB'.trans (pow_le_real (by norm_num))))
    have : m * m < (c - q).length2 := by
      rw [← real_lt]
      refine sq_lt hu hu' ηR_pos hm0 hsq hg2 (lt_of_lt_of_le ?_ hge) ?_ ?_
      · positivity
      · refine (eps_small ?_).2
        refine h500.trans (le_trans ?_ hge)
        have : 0 ≤ n * M / 2 ^ 44 := by positivity
        linarith only [rk', this, r0]
      · have hge' : (|r| * cosDeg (180 / n) + n * M / 2 ^ 44) * (1 - 7 * uR) ≤ gap (toReal q) (toReal c) * (1 - 7 * uR) :=
          mul_le_mul_of_nonneg_right hge (by linarith only [hu'])
        refine le_trans ?_ hge'
        have e : (|r| * cosDeg (180 / n) + n * M / 2 ^ 44) * (1 - 7 * uR) = |r| * cosDeg (180 / n) + n * M / 2 ^ 44 -
            7 * (uR * (|r| * cosDeg (180 / n) + n * M / 2 ^ 44)) := by ring
        rw [e]
        have hb : |r| * cosDeg (180 / n) + n * M / 2 ^ 44 ≤ 2 * M := by
          clear hM hM' hB hB' h500 hge hge' e
          have hr2 := hr'.trans hr
          norm_num at hr2 ⊢
          linarith only [hr2, rk, hr, nM, M0]
        have hb' := mul_le_mul_of_nonneg_left hb hu.le
        clear hM hM' hB hB' h500 hge hge' e hr'
        generalize uR * (|r| * cosDeg (180 / n) + n * M / 2 ^ 44) = z at *
        norm_num at m4 ⊢
        norm_num [uR] at m2 hb'
        linarith only [m2, m4, hb', nM, M0]
    rw [Fl.lt_iff] at this hlt
    exact absurd hlt (not_lt.mpr this.le)
  · intro R hR hgt
    by_contra hle
    push Not at hle
    have hsq := square_near (a := R) (by rw [hR]; exact hr.trans (hM'.trans (pow_le_real (by norm_num))))
    have : (c - q).length2 < R * R := by
      rw [← real_lt]
      have hsq' : |(R * R).real - abs r * abs r| ≤ 5 * uR * (|r| * |r|) + 4 * ηR := by
        rw [hR] at hsq; rwa [abs_mul_abs_self]
      refine sq_lt hu hu' ηR_pos g0 hg2 hsq' r0 ?_ (hle.trans ?_)
      · exact (eps_small (h500.trans (by linarith only [r0]))).2
      · have := mul_le_mul_of_nonneg_left hr hu.le
        clear hM hM' h500 hr' hsq hsq'
        have e : |r| * (1 - 7 * uR) = |r| - 7 * (uR * |r|) := by ring
        rw [e]
        norm_num
        have e2 : uR * M = M / 9007199254740992 := by norm_num [uR]; ring
        linarith only [this, e2, nM, M0]
    rw [gt_iff_lt, Fl.lt_iff] at hgt
    rw [Fl.lt_iff] at this
    exact absurd hgt (not_lt.mpr this.le)

/-- Heights of neighbouring vertices of a computed regular polygon are equal or clearly different. -/
theorem regular_heights {n : ℕ} (hn : 5 ≤ n) (hn' : n ≤ 2 ^ 40) {M : ℝ} (hM : 1 / 2 ^ 300 ≤ M) (hM' : M ≤ 2 ^ 500) {r a : Double}
    {c : Vec2 Double} (ha : |a.real| ≤ 720) (hr : |r.real| ≤ M) (hr' : n ^ 2 * M / 2 ^ 40 ≤ |r.real|) (hc : Within M c) {s : Polygon Double}
    (h : Polygon.regular (n : ℤ) r c a = .ok s) : ClearHeights s.verts := by
  have M0 : 0 < M := lt_of_lt_of_le (by positivity) hM
  have n5 : (5 : ℝ) ≤ n := by exact_mod_cast hn
  have nM : 5 * M ≤ n * M := mul_le_mul_of_nonneg_right n5 M0.le
  have nnM : 5 * M ≤ n ^ 2 * M := mul_le_mul_of_nonneg_right (by nlinarith) M0.le
  have e340 : 1 / (2 : ℝ) ^ 340 ≤ M / 2 ^ 40 := by
    rw [show (340 : ℕ) = 300 + 40 by norm_num, inv_pow_split, div_eq_mul_one_div M]
    exact mul_le_mul_of_nonneg_right hM (by positivity)
  have r0 : 1 / 2 ^ 340 ≤ |r.real| := by
    refine e340.trans (le_trans ?_ hr')
    exact div_le_div_of_nonneg_right (by linarith only [nnM, M0]) (by positivity)
  have rp : 0 < |r.real| := lt_of_lt_of_le (by positivity) r0
  obtain ⟨-, hV, -⟩ := regular_moved (by omega) hn' hM hM' ha hr hc h
  have hA := regular_rise (by omega) hn' ha (hr.trans hM') ((inv_pow_le (by norm_num)).trans r0) h
  have both : List.Forall₂ (fun v W => gap (toReal v) W ≤ n * M / 2 ^ 46 ∧
      ∃ A : Double, v.y = A + c.y ∧ |A.real - (W.y - c.y.real)| ≤ |r.real| / 100) s.verts (regularPoints n (toReal c) r.real a.real) := by
    rw [List.forall₂_iff_get] at hA ⊢
    have hV' := List.forall₂_iff_get.mp hV
    exact ⟨hA.1, fun i h1 h2 => ⟨hV'.2 i h1 h2, hA.2 i h1 h2⟩⟩
  intro e he hne
  obtain ⟨E, hE, ⟨g1, A1, a1, b1⟩, g2, A2, a2, b2⟩ := forall2_mem (edges_rel both) he
  obtain ⟨i, -, θ, hEθ⟩ := (regularPoints_radial n (by omega) (toReal c) r.real a.real).edge hE
  have y1 : E.1.y = c.y.real + r.real * sinDeg θ := by rw [hEθ]; rfl
  have y2 : E.2.y = c.y.real + r.real * sinDeg (θ + 360 / n) := by rw [hEθ]; rfl
  have h1 := (Polygon.gap_y (toReal e.1) E.1).trans g1
  have h2 := (Polygon.gap_y (toReal e.2) E.2).trans g2
  have goal_of : 1 / (2 : ℝ) ^ 500 ≤ |e.2.y.real - e.1.y.real| → 1 / 2 ^ 500 ≤ |e.2.y.val - e.1.y.val| := by
    intro hh
    apply (Rat.cast_le (K := ℝ)).mp
    push_cast; exact hh
  by_cases hd : |E.2.y - E.1.y| ≤ 3 * (n * M / 2 ^ 46)
  · have hl := level_edge (d := 3 * (n * M / 2 ^ 46)) hn M0 hr' le_rfl θ (by
      rw [y1, y2, add_sub_add_left_eq_sub] at hd; exact hd)
    have fin : ∀ (A : Double) (t : ℝ), |A.real - (c.y.real + r.real * t - c.y.real)| ≤ |r.real| / 100 → |t| ≤ 1 → 7 / 10 ≤ |t| →
        ∃ k : ℤ, (A + c.y).val = k * 2 ^ (-400 : ℤ) := by
      intro A t h1 h2 h3
      rw [add_sub_cancel_left] at h1
      have t1 := abs_sub_abs_le_abs_sub (r.real * t) A.real
      rw [abs_sub_comm] at t1
      have t2 := abs_sub_abs_le_abs_sub A.real (r.real * t)
      rw [abs_mul] at t1 t2
      have t3 := mul_le_mul_of_nonneg_left h3 rp.le
      have t4 := mul_le_mul_of_nonneg_left h2 rp.le
      have lo : |r.real| / 2 ≤ |A.real| := by linarith only [t1, t3, h1, rp]
      have hi : |A.real| ≤ 2 * |r.real| := by linarith only [t2, t4, h1, rp]
      have e501 : (2 : ℝ) ^ 501 = 2 * 2 ^ 500 := by rw [pow_succ]; ring
      refine add_mult (by norm_num) (by norm_num) ?_ ?_ ?_
      · apply (Rat.cast_le (K := ℝ)).mp
        push_cast
        refine hi.trans (le_trans ?_ (pow_le_real (show 501 ≤ 1022 by norm_num)))
        rw [e501]
        exact mul_le_mul_of_nonneg_left (hr.trans hM') (by norm_num)
      · apply (Rat.cast_le (K := ℝ)).mp
        push_cast
        exact hc.2.trans (hM'.trans (pow_le_real (by norm_num)))
      · apply (Rat.cast_le (K := ℝ)).mp
        push_cast
        refine le_trans (le_trans ?_ (div_le_div_of_nonneg_right r0 (by norm_num))) lo
        rw [show (-346 : ℤ) = -((346 : ℕ) : ℤ) by norm_num, zpow_neg, zpow_natCast, ← one_div, div_div]
        refine one_div_le_one_div_of_le (by positivity) ?_
        rw [← pow_succ]
        exact pow_le_real (by norm_num)
    have m1 := fin A1 _ (by rw [← y1]; exact b1) (abs_sinDeg _) hl.1
    have m2 := fin A2 _ (by rw [← y2]; exact b2) (abs_sinDeg _) hl.2
    rw [← a1] at m1
    rw [← a2] at m2
    have := mult_apart m1 m2 (fun hv => hne (Fl.ext hv))
    refine le_trans ?_ this
    rw [show (-400 : ℤ) = -((400 : ℕ) : ℤ) by norm_num, zpow_neg, zpow_natCast, ← one_div]
    exact one_div_le_one_div_of_le (by positivity) (pow_le_pow_right₀ (by norm_num) (by norm_num))
  · apply goal_of
    push Not at hd
    have t := abs_sub_le (E.2.y - E.1.y) (e.2.y.real - e.1.y.real) 0
    rw [sub_zero, sub_zero] at t
    have t' : |E.2.y - E.1.y - (e.2.y.real - e.1.y.real)| ≤ n * M / 2 ^ 46 + n * M / 2 ^ 46 := by
      rw [show E.2.y - E.1.y - (e.2.y.real - e.1.y.real) = (e.1.y.real - E.1.y) - (e.2.y.real - E.2.y) by ring]
      exact (abs_sub _ _).trans (add_le_add h1 h2)
    have big : n * M / 2 ^ 46 ≤ |e.2.y.real - e.1.y.real| := by linarith only [t, t', hd]
    refine le_trans ?_ big
    have : M / 2 ^ 46 ≤ n * M / 2 ^ 46 := div_le_div_of_nonneg_right (by linarith only [nM, M0]) (by positivity)
    refine le_trans ?_ this
    refine le_trans (inv_pow_le (show 346 ≤ 500 by norm_num)) ?_
    rw [show (346 : ℕ) = 300 + 46 by norm_num, inv_pow_split, div_eq_mul_one_div M]
    exact mul_le_mul_of_nonneg_right hM (by positivity)

/-- **C82** `Polygon.regular(n, r, c, a)` with five or more vertices, in double precision (with the radii it stores to decide
quickly), whatever was read or asked before: it contains a point farther than `n * M / 2 ^ 44` from the edges of the exact regular
polygon exactly when the exact polygon contains it. (`M` bounds the coordinates and the radius; the radius is not tiny beside it.) -/
theorem C82_regular (eps : Double) (n : ℕ) (hn : 5 ≤ n) (M : ℚ) (hM : 1 / 2 ^ 300 ≤ M) (hM' : M ≤ 2 ^ 500) (r a : Double)
    (c : Vec2 Double) (ha : |a.val| ≤ 720) (hr : |r.val| ≤ M) (hr' : n ^ 2 * M / 2 ^ 40 ≤ |r.val|) (hc : |c.x.val| ≤ M ∧ |c.y.val| ≤ M)
    (ops : List (PolyOp Double)) (hops : ∀ op ∈ ops, PlainRead op) (p : PyPoint Double)
    (hp : |p.toVec.x.val| ≤ M ∧ |p.toVec.y.val| ≤ M) :
    ∃ s, Polygon.regular (n : ℤ) r c a = .ok s ∧ (
      FarFromEdges (n * (M : ℝ) / 2 ^ 44) (regularPoints n (toReal c) r.real a.real) (toReal p.toVec) →
      ∃ b, ((s.after eps ops).containsPoint eps p).1 = .ok b ∧
        (b = true ↔ InHull (regularPoints n (toReal c) r.real a.real) (toReal p.toVec))) := by
  have cst : ∀ {x y : ℚ}, x ≤ y → (x : ℝ) ≤ (y : ℝ) := fun h => by exact_mod_cast h
  have hMr : 1 / 2 ^ 300 ≤ (M : ℝ) := by have := cst hM; push_cast at this; exact this
  have hMr' : (M : ℝ) ≤ 2 ^ 500 := by have := cst hM'; push_cast at this; exact this
  have har : |a.real| ≤ 720 := by have := cst ha; push_cast at this; exact this
  have hrr : |r.real| ≤ M := by have := cst hr; push_cast at this; exact this
  have hr2 : n ^ 2 * (M : ℝ) / 2 ^ 40 ≤ |r.real| := by have := cst hr'; push_cast at this; exact this
  have hcr : Within (M : ℝ) c := ⟨by have := cst hc.1; push_cast at this; exact this, by have := cst hc.2; push_cast at this; exact this⟩
  have hpr : Within (M : ℝ) p.toVec := ⟨by have := cst hp.1; push_cast at this; exact this, by have := cst hp.2; push_cast at this; exact this⟩
  have M0 : 0 < (M : ℝ) := lt_of_lt_of_le (by positivity) hMr
  have n5 : (5 : ℝ) ≤ n := by exact_mod_cast hn
  have nM : 5 * (M : ℝ) ≤ n * M := mul_le_mul_of_nonneg_right n5 M0.le
  have hrr' : n * (M : ℝ) / 2 ^ 40 ≤ |r.real| :=
    (div_le_div_of_nonneg_right (mul_le_mul_of_nonneg_right (by nlinarith) M0.le) (by positivity)).trans hr2
  have hn' : n ≤ 2 ^ 40 := by
    have h := hrr'.trans hrr
    rw [div_le_iff₀ (by positivity), mul_comm] at h
    have := le_of_mul_le_mul_left h M0
    exact_mod_cast this
  obtain ⟨s, hs, -⟩ := C81_regular n (by omega) hn' r a c har (hrr.trans hMr') ⟨hcr.1.trans hMr', hcr.2.trans hMr'⟩
  refine ⟨s, hs, fun hfar => ?_⟩
  have hh := regular_heights hn hn' hMr hMr' har hrr hr2 hcr hs
  obtain ⟨hl, hV, hw⟩ := regular_moved (by omega) hn' hMr hMr' har hrr hcr hs
  have r0 : 0 < |r.real| := lt_of_lt_of_le (by positivity) hrr'
  have hr0 : r.real ≠ 0 := abs_pos.mp r0
  obtain ⟨f1, f2, f3⟩ := regular_facts hn (toReal c) hr0 a.real
  have hb : Broad (n * (M : ℝ) / 2 ^ 46) (regularPoints n (toReal c) r.real a.real) := by
    refine broad_regular hn (toReal c) hr0 a.real ?_
    clear hMr hMr'
    norm_num at hrr' ⊢
    linarith only [hrr', nM, M0]
  have hm4 : ∀ v ∈ p.toVec :: s.verts, |v.x.val| ≤ 4 * M ∧ |v.y.val| ≤ 4 * M := by
    have back : ∀ x : Double, |x.real| ≤ 4 * (M : ℝ) → |x.val| ≤ 4 * M := by
      intro x hx
      apply (Rat.cast_le (K := ℝ)).mp
      push_cast; exact hx
    intro v hv
    rcases List.mem_cons.mp hv with rfl | hv
    · exact ⟨back _ (hpr.1.trans (by linarith only [M0])), back _ (hpr.2.trans (by linarith only [M0]))⟩
    · have := hw v hv
      exact ⟨back _ (this.1.trans (by linarith only [M0])), back _ (this.2.trans (by linarith only [M0]))⟩
  have hfar4 : FarFromEdges (3 * (n * (M : ℝ) / 2 ^ 46) + ((4 * M : ℚ) : ℝ) / 2 ^ 48) (regularPoints n (toReal c) r.real a.real) (toReal p.toVec) := by
    intro E hE q hq
    refine lt_of_le_of_lt ?_ (hfar E hE q hq)
    push_cast
    clear hMr hMr' hrr' hV hb
    norm_num
    linarith only [nM, M0]
  have hM4 : 1 / 2 ^ 500 ≤ 4 * M := by
    have M0q : 0 < M := by exact_mod_cast M0
    refine le_trans (one_div_le_one_div_of_le (by positivity) (pow_le_pow_right₀ (by norm_num) (show 300 ≤ 500 by norm_num))) (hM.trans (by linarith only [M0q]))
  have hM4' : 4 * M ≤ 2 ^ 510 := by
    have e : (2 : ℚ) ^ 510 = 1024 * 2 ^ 500 := by rw [show (510 : ℕ) = 10 + 500 by norm_num, pow_add]; norm_num
    rw [e]
    have M0q : 0 < M := by exact_mod_cast M0
    exact le_trans (b := 1024 * M) (by linarith only [M0q]) (mul_le_mul_of_nonneg_left hM' (by norm_num))
  obtain ⟨b1, b2, b3⟩ := both_near (by positivity) hM4 hM4' (by omega) hV f1 f2 hb p hm4 hh hfar4 eps
  refine ⟨winding (regularPoints n (toReal c) r.real a.real) (toReal p.toVec) != 0, ?_, b3⟩
  have hK := (regular_kept (by omega) hn' hs).1.after eps ops hops
  have hR := regularPoints_radial n (by omega) (toReal c) r.real a.real
  have hlV : (regularPoints n (toReal c) r.real a.real).length = n := by simp [regularPoints]
  -- the first two vertices
  obtain ⟨v, w, rest, hvs⟩ : ∃ v w rest, s.verts = v :: w :: rest := by
    rcases hx : s.verts with _ | ⟨v, _ | ⟨w, rest⟩⟩
    · rw [hx] at hl; simp at hl; omega
    · rw [hx] at hl; simp at hl; omega
    · exact ⟨v, w, rest, rfl⟩
  have hmidR : Polygon.midRadius s.verts c = ((v + w).smul (1 / (1 + 1)) - c).length := by
    rw [hvs]; rfl
  have hget := (List.forall₂_iff_get.mp hV).2
  have gv : gap (toReal v) (circ (toReal c) r.real a.real) ≤ n * (M : ℝ) / 2 ^ 46 := by
    have := hget 0 (by omega) (by omega)
    simp only [hvs, regularPoints, List.get_eq_getElem, List.getElem_cons_zero, List.getElem_map, List.getElem_range] at this
    simpa using this
  have gw : gap (toReal w) (circ (toReal c) r.real (a.real + 360 / n)) ≤ n * (M : ℝ) / 2 ^ 46 := by
    have := hget 1 (by omega) (by omega)
    simp only [hvs, regularPoints, List.get_eq_getElem, List.getElem_cons_succ, List.getElem_cons_zero, List.getElem_map, List.getElem_range] at this
    simpa using this
  obtain ⟨k1, k2⟩ := regular_radii hn hMr hMr' hrr hrr' hcr hpr (hw v (by rw [hvs]; simp)) (hw w (by rw [hvs]; simp)) gv gw
  obtain ⟨c1, c2⟩ := hK.contains_shortcut (by omega) eps p
  have D0 : 0 ≤ n * (M : ℝ) / 2 ^ 44 := by positivity
  by_cases hd1 : (c - p.toVec).length2 < Polygon.midRadius s.verts c * Polygon.midRadius s.verts c
  · rw [c1 _ rfl hd1]
    have k8 := cosDeg_36 hn
    have n0 : (0 : ℝ) < n := by linarith only [n5]
    have hwind := radial_in hR (by rw [ne_eq, ← List.length_eq_zero_iff, hlV]; omega)
      (sinDeg_pos (by positivity) (by rw [div_lt_iff₀ n0]; linarith only [n5])) (fun _ _ => mul_self_pos.mpr hr0)
      (mul_pos r0 (lt_of_lt_of_le (by norm_num) k8)) D0 f3 (k1 (by rwa [hmidR] at hd1)) hfar
    simp [hwind]
  by_cases hd2 : (c - p.toVec).length2 > r * r
  · rw [c2 (fun r' e => by rw [← Option.some.inj e]; exact hd1) _ rfl hd2]
    have hwind := radial_out hR D0 (by
        clear hMr hMr' hV hb
        norm_num at hrr' ⊢
        linarith only [hrr', nM, M0]) (fun _ _ => by rw [abs_mul_abs_self]) (k2 r rfl hd2) hfar
    simp [hwind]
  rcases hK.contains (by omega) eps p (.inr ⟨c, rfl, fun _ => ⟨fun r' e => by rw [← Option.some.inj e]; exact hd1,
    fun r' e => by rw [← Option.some.inj e]; exact hd2⟩⟩) with h | h
  · rw [h, b1]
  · rw [h, b2]

/-- `C82_regular` with five vertices and `M = 4`: a point near the centre, and its exact polygon contains it. -/
example (eps : Double) : let r := dbl 2; let a := dbl 30; let c := dvec 1 2; let p := PyPoint.vec (dvec (5 / 4) 2)
    |a.val| ≤ 720 ∧ |r.val| ≤ 4 ∧ ((5 : ℕ) : ℚ) ^ 2 * 4 / 2 ^ 40 ≤ |r.val| ∧ (|c.x.val| ≤ 4 ∧ |c.y.val| ≤ 4) ∧
    (|p.toVec.x.val| ≤ 4 ∧ |p.toVec.y.val| ≤ 4) ∧
    FarFromEdges (((5 : ℕ) : ℝ) * ((4 : ℚ) : ℝ) / 2 ^ 44) (regularPoints 5 (toReal c) r.real a.real) (toReal p.toVec) ∧
    InHull (regularPoints 5 (toReal c) r.real a.real) (toReal p.toVec) ∧
    ∃ s, Polygon.regular (5 : ℕ) r c a = .ok s ∧ (s.containsPoint eps p).1 = .ok true := by
  intro r a c p
  have hv : |a.val| ≤ 720 ∧ |r.val| ≤ 4 ∧ ((5 : ℕ) : ℚ) ^ 2 * 4 / 2 ^ 40 ≤ |r.val| ∧ (|c.x.val| ≤ 4 ∧ |c.y.val| ≤ 4) ∧
    (|p.toVec.x.val| ≤ 4 ∧ |p.toVec.y.val| ≤ 4) ∧ r.val = 2 ∧ c.x.val = 1 ∧ c.y.val = 2 ∧ p.toVec.x.val = 5 / 4 ∧ p.toVec.y.val = 2 := by
    decide +kernel
  obtain ⟨h1, h2, h3, h4, h5, h6, h7, h8, h9, h10⟩ := hv
  have hr : r.real = 2 := by unfold Fl.real; rw [h6]; norm_num
  have hg : gap (toReal p.toVec) (toReal c) = 1 / 4 := by
    unfold gap vlen toReal Fl.real
    rw [h7, h8, h9, h10]
    rw [show ((((5 / 4 : ℚ) : ℝ) - ((1 : ℚ) : ℝ)) * (((5 / 4 : ℚ) : ℝ) - ((1 : ℚ) : ℝ)) + (((2 : ℚ) : ℝ) - ((2 : ℚ) : ℝ)) * (((2 : ℚ) : ℝ) - ((2 : ℚ) : ℝ))) =
      (1 / 4) * (1 / 4) by norm_num]
    exact Real.sqrt_mul_self (by norm_num)
  have hr0 : r.real ≠ 0 := by rw [hr]; norm_num
  obtain ⟨f1, f2, f3⟩ := regular_facts (n := 5) le_rfl (toReal c) hr0 a.real
  have k8 := cosDeg_36 (n := 5) le_rfl
  have hfar : FarFromEdges (((5 : ℕ) : ℝ) * ((4 : ℚ) : ℝ) / 2 ^ 44) (regularPoints 5 (toReal c) r.real a.real) (toReal p.toVec) := by
    intro E hE q hq
    have := f3 E hE q hq
    rw [← gap_d2, hr, abs_of_pos (show (0 : ℝ) < 2 by norm_num)] at this
    have g := (mul_self_le_mul_self_iff (mul_nonneg (by norm_num) (le_trans (by norm_num) k8)) (gap_nonneg _ _)).mpr this
    have t := gap_triangle q (toReal p.toVec) (toReal c)
    rw [Polygon.gap_comm q (toReal p.toVec), hg] at t
    norm_num
    linarith
  have hin : InHull (regularPoints 5 (toReal c) r.real a.real) (toReal p.toVec) := by
    refine inHull_of_winding (radial_in (regularPoints_radial 5 (by norm_num) (toReal c) r.real a.real) (by simp [regularPoints])
      (sinDeg_pos (by norm_num) (by norm_num)) (fun _ _ => mul_self_pos.mpr hr0) (m := |r.real| * cosDeg (180 / (5 : ℕ))) ?_
      (by norm_num) f3 ?_ hfar)
    · exact mul_pos (abs_pos.mpr hr0) (lt_of_lt_of_le (by norm_num) k8)
    · rw [hg, hr, abs_of_pos (show (0 : ℝ) < 2 by norm_num)]
      have : (0 : ℝ) ≤ (5 : ℕ) * ((4 : ℚ) : ℝ) / 2 ^ 44 := by norm_num
      linarith only [this, k8]
  refine ⟨h1, h2, h3, h4, h5, hfar, hin, ?_⟩
  obtain ⟨s, hs, hc⟩ := C82_regular eps 5 le_rfl 4 ((div_le_one (by positivity)).mpr (one_le_pow₀ (by norm_num)) |>.trans (by norm_num)) (le_trans (by norm_num) (pow_le_pow_right₀ (by norm_num) (show 2 ≤ 500 by norm_num))) r a c h1 h2 h3 h4 [] (by simp) p h5
  obtain ⟨b, hb, hi⟩ := hc hfar
  refine ⟨s, hs, ?_⟩
  rw [show s.after eps [] = s from rfl] at hb
  rw [hb, hi.mpr hin]

end Planar
