import Verif.Props.FloatRegular
import Verif.Props.StarShape
/-
C82: stars in double precision contain the points of the exact star, except near the edges.
-/
set_option linter.unusedSectionVars false
namespace Planar
open Spec

/-- A radius decides only what it should, up to `M / 2 ^ 49`. -/
theorem radius_decides {M : ℝ} (hM' : M ≤ 2 ^ 500) {R : Double} {c q : Vec2 Double} (hR : |R.real| ≤ M) (hR' : 1 / 2 ^ 500 ≤ |R.real|)
    (hc : Within M c) (hq : Within M q) :
    ((c - q).length2 < R * R → gap (toReal q) (toReal c) < |R.real| + M / 2 ^ 49) ∧
    ((c - q).length2 > R * R → |R.real| - M / 2 ^ 49 < gap (toReal q) (toReal c)) := by
  have hu := uR_pos
  have hu' := uR_small
  have r0 : 0 < |R.real| := lt_of_lt_of_le (by positivity) hR'
  have M0 : 0 < M := lt_of_lt_of_le r0 hR
  have hg2 := gap2_near (v := c) (w := q) (n := 500) (by norm_num) ⟨hc.1.trans hM', hc.2.trans hM'⟩ ⟨hq.1.trans hM', hq.2.trans hM'⟩
  have hg2 : |((c - q).length2).real - gap (toReal q) (toReal c) * gap (toReal q) (toReal c)| ≤
      5 * uR * (gap (toReal q) (toReal c) * gap (toReal q) (toReal c)) + 4 * ηR := by
    rw [Polygon.gap_comm (toReal q)]; exact hg2
  have g0 := gap_nonneg (toReal q) (toReal c)
  have hsq := square_near (a := R) (hR.trans (hM'.trans (pow_le_real (by norm_num))))
  have hsq' : |(R * R).real - abs R.real * abs R.real| ≤ 5 * uR * (|R.real| * |R.real|) + 4 * ηR := by rwa [abs_mul_abs_self]
  have e : uR * M = M / 2 ^ 49 / 16 := by unfold uR; ring
  have uR0 := mul_le_mul_of_nonneg_left hR hu.le
  have uR1 : uR * (M / 2 ^ 49) ≤ 1 / 1000 * (M / 2 ^ 49) := mul_le_mul_of_nonneg_right hu' (by positivity)
  have D0 : 0 < M / 2 ^ 49 := by positivity
  generalize M / 2 ^ 49 = D at *
  constructor
  · intro hlt
    by_contra hge
    push Not at hge
    have : R * R < (c - q).length2 := by
      rw [← real_lt]
      refine sq_lt hu hu' ηR_pos r0.le hsq' hg2 (lt_of_lt_of_le (by linarith only [r0, D0]) hge) ?_ ?_
      · exact (eps_small ((hR'.trans (by linarith only [D0])).trans hge)).2
      · have := mul_le_mul_of_nonneg_right hge (show 0 ≤ 1 - 7 * uR by linarith only [hu'])
        refine le_trans ?_ this
        have e2 : (|R.real| + D) * (1 - 7 * uR) = |R.real| + D - 7 * (uR * |R.real|) - 7 * (uR * D) := by ring
        rw [e2]
        linarith only [uR0, uR1, e, D0]
    rw [Fl.lt_iff] at this hlt
    exact absurd hlt (not_lt.mpr this.le)
  · intro hgt
    by_contra hle
    push Not at hle
    have : (c - q).length2 < R * R := by
      rw [← real_lt]
      refine sq_lt hu hu' ηR_pos g0 hg2 hsq' r0 ?_ (hle.trans ?_)
      · exact (eps_small hR').2
      · have e2 : |R.real| * (1 - 7 * uR) = |R.real| - 7 * (uR * |R.real|) := by ring
        rw [e2]
        linarith only [uR0, e, D0]
    rw [gt_iff_lt, Fl.lt_iff] at hgt
    rw [Fl.lt_iff] at this
    exact absurd hgt (not_lt.mpr this.le)

/-- An edge of a star that is nearly horizontal is above or below the centre. -/
theorem level_side {x1 y1 x2 y2 r1 r2 δ L m : ℝ} (h1 : |x1| ≤ r1) (h2 : |x2| ≤ r2) (hm1 : m ≤ r1) (hm2 : m ≤ r2) (hm : 0 < m)
    (hL : 0 ≤ L) (hx : r1 * r2 * L = |x1 * y2 - y1 * x2|) (hd : |y2 - y1| ≤ δ) : m * L / 2 - δ ≤ |y1| := by
  have r1p : 0 < r1 := by linarith
  have r2p : 0 < r2 := by linarith
  have e : x1 * y2 - y1 * x2 = y1 * (x1 - x2) + x1 * (y2 - y1) := by ring
  have t := abs_add_le (y1 * (x1 - x2)) (x1 * (y2 - y1))
  rw [← e, ← hx, abs_mul, abs_mul] at t
  have t1 : |y1| * |x1 - x2| ≤ |y1| * (r1 + r2) := mul_le_mul_of_nonneg_left ((abs_sub _ _).trans (add_le_add h1 h2)) (abs_nonneg _)
  have t2 : |x1| * |y2 - y1| ≤ (r1 + r2) * δ := mul_le_mul (by linarith) hd (abs_nonneg _) (by linarith)
  have t3 : m * (r1 + r2) ≤ 2 * (r1 * r2) := by nlinarith
  have t4 : (m * L / 2) * (r1 + r2) ≤ r1 * r2 * L := by
    have := mul_le_mul_of_nonneg_right t3 hL
    linarith
  have : (m * L / 2 - δ) * (r1 + r2) ≤ |y1| * (r1 + r2) := by
    rw [sub_mul]; linarith
  exact le_of_mul_le_mul_right this (by linarith)

theorem starPoints_radial (n : ℕ) (hn : 0 < n) (c : Vec2 ℝ) (r1 r2 a : ℝ) :
    IsRadial c (fun i => if i % 2 = 0 then r1 else r2) a (180 / n) (starPoints n c r1 r2 a) := by
  constructor
  · intro i h
    simp only [starPoints, List.getElem_map, List.getElem_range]
    congr 1; ring
  · unfold starPoints
    rw [List.length_map, List.length_range]
    push_cast
    field_simp; norm_num

variable [PyMath Double] [SqrtOk] [TrigOk]

/-- What `Polygon.star` stores, when the radii differ. -/
theorem star_kept {n : ℕ} (hn : 2 ≤ n) (hn' : n ≤ 2 ^ 40) {r1 r2 a : Double} (hne : r1 ≠ r2) {c : Vec2 Double} {s : Polygon Double}
    (h : Polygon.star (n : ℤ) r1 r2 c a = .ok s) :
    Kept s.verts (if (decide (r1 > 0)) == (decide (r2 > 0)) then some (some c) else none)
      (if (decide (r1 ≥ 0)) == (decide (r2 ≥ 0)) then
        some (pymin (pyabs r1) (pyabs r2) * pymin (pyabs r1) (pyabs r2)) else none)
      (some (pymax (pyabs r1) (pyabs r2) * pymax (pyabs r1) (pyabs r2))) s ∧
    (s.convex = some false ∧ s.yPolylines = none) ∧
    s.verts = Polygon.starVerts ((PyMath.ofInt ((180 : ℕ) : ℤ) : Double) / PyMath.ofInt (n : ℤ)) r1 r2 c n a := by
  obtain ⟨h0, -⟩ := step_near 180 n (by norm_num) (by omega) hn'
  have hb : (r1 == r2) = false := by
    rw [beq_eq_false_iff_ne]; exact hne
  unfold Polygon.star pydiv at h
  simp only [show ¬ (n : ℤ) < 2 by omega, h0, bind, Except.bind, Int.toNat_natCast, Bool.false_eq_true, if_false, pure, Except.pure, hb] at h
  split at h
  · simp at h
  · rename_i q hq
    have k := Kept.new (List.map_id'' Vec2.copy_fl _) hq
    have kq : q.convex = some false ∧ q.yPolylines = none := by
      unfold Polygon.new at hq
      simp only at hq
      split at hq
      · simp at hq
      · rw [← Except.ok.inj hq]
        have fin : ∀ (y : Option Bool) (q : Polygon Double), (q.convex = some false ∧ q.yPolylines = none) →
            ((match y, q.simple with | some b, none => { q with simple := some b } | _, _ => q : Polygon Double).convex = some false ∧
            (match y, q.simple with | some b, none => { q with simple := some b } | _, _ => q : Polygon Double).yPolylines = none) := by
          intro y q hq; split <;> exact hq
        refine fin _ _ ?_
        have hl := (starVerts_at ((PyMath.ofInt 180 : Double) / PyMath.ofInt (n : ℤ)) r1 r2 c n a).1
        have h3 : (List.map Vec2.copy (Polygon.starVerts ((PyMath.ofInt 180 : Double) / PyMath.ofInt (n : ℤ)) r1 r2 c n a)).length > 3 := by
          rw [List.length_map, hl]; omega
        constructor <;> simp only [Polygon.cleared, h3, decide_true, if_true, Bool.false_and, Bool.false_eq_true, if_false]
    have kv := k.verts
    simp only [Vec2.copy_fl, Except.ok.injEq] at h
    have hy : ∀ pls, q.yPolylines = some pls → pls = Polygon.splitYPolylines q.verts := by
      intro pls e; rw [kv]; exact k.ypl pls e
    have hx : ∀ x, q.bbox = some x → Box.fromPoints q.verts = .ok x := by
      intro x e; rw [kv]; exact k.bbox x e
    have kc := k.cen
    have km := k.minR2
    have g : ∀ t : Polygon Double, t.convex = some false → (!(t.convex.getD false)) = true := fun t ht => by rw [ht]; rfl
    have g1 := g q kq.1
    rw [← h]
    split_ifs <;> first
      | exact ⟨⟨rfl, rfl, rfl, rfl, hy, hx⟩, kq, kv⟩
      | exact ⟨⟨rfl, rfl, km, rfl, hy, hx⟩, kq, kv⟩
      | exact ⟨⟨rfl, kc, rfl, rfl, hy, hx⟩, kq, kv⟩
      | exact ⟨⟨rfl, kc, km, rfl, hy, hx⟩, kq, kv⟩

/-- Where the computed vertices are: within `n * M / 2 ^ 45` of the exact ones. -/
theorem star_moved {n : ℕ} (hn : 2 ≤ n) (hn' : n ≤ 2 ^ 40) {M : ℝ} (hM : 1 / 2 ^ 300 ≤ M) (hM' : M ≤ 2 ^ 500) {r1 r2 a : Double}
    {c : Vec2 Double} (ha : |a.real| ≤ 720) (hr1 : |r1.real| ≤ M) (hr2 : |r2.real| ≤ M) (hc : Within M c) {s : Polygon Double}
    (h : Polygon.star (n : ℤ) r1 r2 c a = .ok s) :
    s.verts.length = 2 * n ∧ MovedBy (n * M / 2 ^ 45) s.verts (starPoints n (toReal c) r1.real r2.real a.real) ∧
    ∀ v ∈ s.verts, Within (3 * M) v := by
  obtain ⟨P, hP, hl, hv⟩ := C81_star n hn hn' r1 r2 a c ha (hr1.trans hM') (hr2.trans hM') ⟨hc.1.trans hM', hc.2.trans hM'⟩
  rw [h] at hP
  injection hP with hP
  subst hP
  have M0 : 0 < M := lt_of_lt_of_le (by positivity) hM
  have hη : 1 / (2 : ℝ) ^ 1073 ≤ 1 / 2 ^ 52 * M := by
    refine le_trans ?_ (mul_le_mul_of_nonneg_left hM (by positivity))
    rw [← inv_pow_split]; exact inv_pow_le (by norm_num)
  have n2 : (2 : ℝ) ≤ n := by exact_mod_cast hn
  have n40 : (n : ℝ) ≤ 2 ^ 40 := by exact_mod_cast hn'
  have hρ : ∀ i : ℕ, |(if i % 2 = 0 then r1 else r2).real| ≤ M := by intro i; split_ifs <;> assumption
  have one : ∀ i < 2 * n, ∀ v, NearCircle c (if i % 2 = 0 then r1 else r2) (a.real + 180 * i / n) i v →
      |v.x.real - (circ (toReal c) (if i % 2 = 0 then r1 else r2).real (a.real + 180 * i / n)).x| ≤ n * M / 2 ^ 46 ∧
      |v.y.real - (circ (toReal c) (if i % 2 = 0 then r1 else r2).real (a.real + 180 * i / n)).y| ≤ n * M / 2 ^ 46 := by
    intro i hi v hv
    have hi' : (i : ℝ) + 1 ≤ 2 * n := by exact_mod_cast hi
    have i0 : (0 : ℝ) ≤ i := by positivity
    obtain ⟨h1, h2, -⟩ := hv
    have k : ∀ x, |x| ≤ M → (i / 2 ^ 48 + 1 / 2 ^ 47) * |(if i % 2 = 0 then r1 else r2).real| + 1 / 2 ^ 52 * |x| + 1 / 2 ^ 1073 ≤ n * M / 2 ^ 46 := by
      intro x hx
      have a1 : (i / 2 ^ 48 + 1 / 2 ^ 47) * |(if i % 2 = 0 then r1 else r2).real| ≤ (i / 2 ^ 48 + 1 / 2 ^ 47) * M :=
        mul_le_mul_of_nonneg_left (hρ i) (by positivity)
      have a2 : (1 : ℝ) / 2 ^ 52 * |x| ≤ 1 / 2 ^ 52 * M := mul_le_mul_of_nonneg_left hx (by positivity)
      have a3 : ((i : ℝ) + 1) * M ≤ 2 * n * M := mul_le_mul_of_nonneg_right hi' M0.le
      have a4 : 2 * M ≤ n * M := mul_le_mul_of_nonneg_right n2 M0.le
      have e : ((i : ℝ) / 2 ^ 48 + 1 / 2 ^ 47) * M = ((i + 1) * M + M) / 2 ^ 48 := by ring
      rw [e] at a1
      generalize 1 / (2 : ℝ) ^ 1073 = z at *
      generalize |(if i % 2 = 0 then r1 else r2).real| = ρ at *
      clear hM hM' h1 h2 e
      norm_num at a1 a2 hη ⊢
      linarith
    exact ⟨h1.trans (k _ hc.1), h2.trans (k _ hc.2)⟩
  have hif : ∀ i : ℕ, (if i % 2 = 0 then r1 else r2).real = if i % 2 = 0 then r1.real else r2.real := by
    intro i; split_ifs <;> rfl
  refine ⟨hl, ?_, ?_⟩
  · unfold MovedBy
    rw [List.forall₂_iff_get]
    refine ⟨by rw [hl]; simp [starPoints], fun i h1 h2 => ?_⟩
    have hi : i < 2 * n := by rw [← hl]; exact h1
    obtain ⟨v, hv1, hv2⟩ := hv i hi
    have e1 : s.verts.get ⟨i, h1⟩ = v := by
      rw [List.get_eq_getElem]
      rw [List.getElem?_eq_getElem h1] at hv1
      exact Option.some.inj hv1
    have e2 : (starPoints n (toReal c) r1.real r2.real a.real).get ⟨i, h2⟩ =
        circ (toReal c) (if i % 2 = 0 then r1 else r2).real (a.real + 180 * i / n) := by
      simp only [starPoints, List.get_eq_getElem, List.getElem_map, List.getElem_range, hif]
    rw [e1, e2]
    obtain ⟨k1, k2⟩ := one i hi v hv2
    refine (gap_le_sum _ _).trans ((add_le_add k1 k2).trans (le_of_eq ?_))
    ring
  · intro v hv'
    obtain ⟨i, h1, rfl⟩ := List.getElem_of_mem hv'
    have hi : i < 2 * n := by rw [← hl]; exact h1
    obtain ⟨v, hv1, hv2⟩ := hv i hi
    have e1 : s.verts[i] = v := by
      rw [List.getElem?_eq_getElem h1] at hv1
      exact Option.some.inj hv1
    rw [e1]
    obtain ⟨k1, k2⟩ := one i hi v hv2
    have small : (n : ℝ) * M / 2 ^ 46 ≤ M := by
      have := mul_le_mul_of_nonneg_right n40 M0.le
      clear hM hM'
      norm_num at this ⊢
      linarith
    have fin : ∀ (x y K : ℝ), |x - (y + (if i % 2 = 0 then r1 else r2).real * K)| ≤ n * M / 2 ^ 46 → |y| ≤ M → |K| ≤ 1 → |x| ≤ 3 * M := by
      intro x y K h1 h2 h3
      have t1 := abs_sub_abs_le_abs_sub x (y + (if i % 2 = 0 then r1 else r2).real * K)
      have t2 := abs_add_le y ((if i % 2 = 0 then r1 else r2).real * K)
      have t3 : |(if i % 2 = 0 then r1 else r2).real * K| ≤ M := by
        rw [abs_mul]; exact (mul_le_of_le_one_right (abs_nonneg _) h3).trans (hρ i)
      linarith only [h1, h2, t1, t2, t3, small]
    exact ⟨fin _ _ _ k1 hc.1 (abs_cosDeg _), fin _ _ _ k2 hc.2 (abs_sinDeg _)⟩

/-- The heights of the computed vertices, before the centre is added. -/
theorem star_rise {n : ℕ} (hn : 2 ≤ n) (hn' : n ≤ 2 ^ 40) {M : ℝ} (hM : 1 / 2 ^ 300 ≤ M) (hM' : M ≤ 2 ^ 500) {r1 r2 a : Double}
    (hne : r1 ≠ r2) {c : Vec2 Double} (ha : |a.real| ≤ 720) (hr1 : |r1.real| ≤ M) (hr2 : |r2.real| ≤ M) {s : Polygon Double}
    (h : Polygon.star (n : ℤ) r1 r2 c a = .ok s) :
    List.Forall₂ (fun v W => ∃ A : Double, v.y = A + c.y ∧ |A.real - (W.y - c.y.real)| ≤ n * M / 2 ^ 46)
      s.verts (starPoints n (toReal c) r1.real r2.real a.real) := by
  obtain ⟨-, -, hv⟩ := star_kept hn hn' hne h
  obtain ⟨-, hs⟩ := step_near 180 n (by norm_num) (by omega) hn'
  obtain ⟨hl, hat⟩ := starVerts_at ((PyMath.ofInt ((180 : ℕ) : ℤ) : Double) / PyMath.ofInt (n : ℤ)) r1 r2 c n a
  rw [← hv] at hl hat
  rw [List.forall₂_iff_get]
  refine ⟨by rw [hl]; simp [starPoints], fun i h1 h2 => ?_⟩
  have hi : i < 2 * n := by rw [← hl]; exact h1
  have e1 := hat i hi
  rw [List.getElem?_eq_getElem h1] at e1
  have e1 := Option.some.inj e1
  have hif : (if i % 2 = 0 then r1 else r2).real = if i % 2 = 0 then r1.real else r2.real := by split_ifs <;> rfl
  have e2 : (starPoints n (toReal c) r1.real r2.real a.real).get ⟨i, h2⟩ =
      circ (toReal c) (if i % 2 = 0 then r1 else r2).real (a.real + 180 * i / n) := by
    simp only [starPoints, List.get_eq_getElem, List.getElem_map, List.getElem_range, hif]
  rw [List.get_eq_getElem, e1, e2]
  refine ⟨_, rfl, ?_⟩
  have hr : |(if i % 2 = 0 then r1 else r2).real| ≤ M := by split_ifs <;> assumption
  generalize (if i % 2 = 0 then r1 else r2) = r at *
  have M0 : 0 < M := lt_of_lt_of_le (by positivity) hM
  have n2 : (2 : ℝ) ≤ n := by exact_mod_cast hn
  have n40 : (n : ℝ) ≤ 2 ^ 40 := by exact_mod_cast hn'
  push_cast at hs
  obtain ⟨a1, a2⟩ := angles_near a _ (180 / n) (2 * n) (by
      push_cast
      calc 2 * (n : ℝ) ≤ 2 * 2 ^ 40 := mul_le_mul_of_nonneg_left n40 (by norm_num)
        _ ≤ 2 ^ 41 := by norm_num) ha (by positivity) (by
      push_cast
      rw [mul_assoc, mul_div_cancel₀ _ (by positivity)]; norm_num)
    (by rw [div_le_iff₀ (by linarith)]; linarith) hs i hi.le
  obtain ⟨-, ts⟩ := trig_close a1
  have hα : ((fun t => t + ((PyMath.ofInt ((180 : ℕ) : ℤ) : Double) / PyMath.ofInt (n : ℤ)))^[i] a).Finite :=
    finite_of (M := 1200) (lt_of_le_of_lt (by norm_num) (pow_lt_real (show 11 < 1024 by norm_num))) a2
  obtain ⟨-, hk⟩ := cosSinDeg_near _ hα
  generalize ((fun t => t + ((PyMath.ofInt ((180 : ℕ) : ℤ) : Double) / PyMath.ofInt (n : ℤ)))^[i] a) = α at *
  rw [show (i : ℝ) * (180 / n) = 180 * i / n by ring] at ts
  generalize (cosSinDeg α).2 = k at *
  have hb := abs_sinDeg (a.real + 180 * (i : ℝ) / n)
  have hi' : (i : ℝ) ≤ 2 * n := by exact_mod_cast hi.le
  have u0 := uR_pos
  have hiu : (i : ℝ) * (1401 * uR) * (35 / 2000) ≤ 50 * (n * uR) := by
    have := mul_le_mul_of_nonneg_right hi' u0.le
    have h0 : 0 ≤ n * uR := by positivity
    linarith only [this, h0]
  have nu : 2 * uR ≤ n * uR := mul_le_mul_of_nonneg_right n2 u0.le
  have hη : 1000 * ηR ≤ uR * M := (ηR_le (show 300 ≤ 1012 by norm_num)).trans (mul_le_mul_of_nonneg_left hM u0.le)
  have e3 : (circ (toReal c) r.real (a.real + 180 * i / n)).y - c.y.real = r.real * sinDeg (a.real + 180 * i / n) := by
    simp only [circ, toReal]; ring
  rw [e3]
  generalize sinDeg (a.real + 180 * (i : ℝ) / n) = K at *
  have hkK : |k.real - K| ≤ 50 * (n * uR) + 35 * uR := by
    have := abs_sub_le k.real (sinDeg α.real) K
    linarith only [this, hk, ts, hiu]
  have nu1 : n * uR ≤ 1 / 1000 := by
    have := mul_le_mul_of_nonneg_right n40 u0.le
    refine this.trans ?_
    norm_num [uR]
  have hk1 : |k.real| ≤ 11 / 10 := by
    have := abs_sub_abs_le_abs_sub k.real K
    have h35 : 35 * uR ≤ 1 / 1000 := by norm_num [uR]
    linarith only [this, hkK, hb, nu1, h35]
  have r0 := abs_nonneg r.real
  have hkr : |k.real * r.real| ≤ 11 / 10 * M := by
    rw [abs_mul]; exact mul_le_mul hk1 hr r0 (by norm_num)
  have e501 : (2 : ℝ) ^ 501 = 2 * 2 ^ 500 := by rw [pow_succ]; ring
  have hm := mul_ok k r ((hkr.trans (by rw [e501]; exact le_trans (b := 2 * M) (by linarith only [M0]) (mul_le_mul_of_nonneg_left hM' (by norm_num)))).trans
    (pow_le_real (show 501 ≤ 1023 by norm_num)))
  have hm' := mul_le_mul_of_nonneg_left hkr u0.le
  have t := abs_sub_le (k * r).real (k.real * r.real) (r.real * K)
  have e4 : k.real * r.real - r.real * K = (k.real - K) * r.real := by ring
  rw [e4, abs_mul] at t
  have hx := mul_le_mul hkK hr r0 (by linarith only [nu, u0])
  have e5 : (n : ℝ) * M / 2 ^ 46 = 128 * (n * uR * M) := by unfold uR; ring
  rw [e5]
  have nuM := mul_le_mul_of_nonneg_right nu M0.le
  have e6 : (50 * (n * uR) + 35 * uR) * M = 50 * (n * uR * M) + 35 * (uR * M) := by ring
  rw [e6] at hx
  have uM := mul_pos u0 M0
  linarith only [t, hx, hm, hm', nuM, hη, uM]

/-- Heights of neighbouring vertices of a computed star are equal or clearly different. -/
theorem star_heights {n : ℕ} (hn : 2 ≤ n) (hn' : n ≤ 2 ^ 40) {M : ℝ} (hM : 1 / 2 ^ 300 ≤ M) (hM' : M ≤ 2 ^ 500) {r1 r2 a : Double}
    (hne : r1 ≠ r2) {c : Vec2 Double} (ha : |a.real| ≤ 720) (hr1 : |r1.real| ≤ M) (hr2 : |r2.real| ≤ M)
    (hl1 : n ^ 2 * M / 2 ^ 40 ≤ |r1.real|) (hl2 : n ^ 2 * M / 2 ^ 40 ≤ |r2.real|) (hc : Within M c) {s : Polygon Double}
    (h : Polygon.star (n : ℤ) r1 r2 c a = .ok s) : ClearHeights s.verts := by
  have M0 : 0 < M := lt_of_lt_of_le (by positivity) hM
  have n2 : (2 : ℝ) ≤ n := by exact_mod_cast hn
  have n0 : (0 : ℝ) < n := by linarith
  have nM : 2 * M ≤ n * M := mul_le_mul_of_nonneg_right n2 M0.le
  obtain ⟨-, hV, -⟩ := star_moved hn hn' hM hM' ha hr1 hr2 hc h
  have hA := star_rise hn hn' hM hM' hne ha hr1 hr2 h
  have both : List.Forall₂ (fun v W => gap (toReal v) W ≤ n * M / 2 ^ 45 ∧
      ∃ A : Double, v.y = A + c.y ∧ |A.real - (W.y - c.y.real)| ≤ n * M / 2 ^ 46) s.verts
      (starPoints n (toReal c) r1.real r2.real a.real) := by
    rw [List.forall₂_iff_get] at hA ⊢
    have hV' := List.forall₂_iff_get.mp hV
    exact ⟨hA.1, fun i h1 h2 => ⟨hV'.2 i h1 h2, hA.2 i h1 h2⟩⟩
  intro e he hneq
  obtain ⟨E, hE, ⟨g1, A1, a1, b1⟩, g2, A2, a2, b2⟩ := forall2_mem (edges_rel both) he
  obtain ⟨i, -, θ, hEθ⟩ := (starPoints_radial n (by omega) (toReal c) r1.real r2.real a.real).edge hE
  have hlen : (starPoints n (toReal c) r1.real r2.real a.real).length = 2 * n := by simp [starPoints]
  rw [hlen] at hEθ
  have h1 := (Polygon.gap_y (toReal e.1) E.1).trans g1
  have h2 := (Polygon.gap_y (toReal e.2) E.2).trans g2
  obtain ⟨ρ1, ρ2, hρE, l1, l2, u1, u2⟩ : ∃ ρ1 ρ2, E = (circ (toReal c) ρ1 θ, circ (toReal c) ρ2 (θ + 180 / n)) ∧
      n ^ 2 * M / 2 ^ 40 ≤ |ρ1| ∧ n ^ 2 * M / 2 ^ 40 ≤ |ρ2| ∧ |ρ1| ≤ M ∧ |ρ2| ≤ M := by
    refine ⟨_, _, hEθ, ?_⟩
    rcases star_edge_radii hn r1.real r2.real i with ⟨e1, e2⟩ | ⟨e1, e2⟩ <;> rw [e1, e2]
    · exact ⟨hl1, hl2, hr1, hr2⟩
    · exact ⟨hl2, hl1, hr2, hr1⟩
  have y1 : E.1.y = c.y.real + ρ1 * sinDeg θ := by rw [hρE]; rfl
  have y2 : E.2.y = c.y.real + ρ2 * sinDeg (θ + 180 / n) := by rw [hρE]; rfl
  by_cases hd : |E.2.y - E.1.y| ≤ 3 * (n * M / 2 ^ 45)
  · have hpi := Real.pi_pos
    have hsin : 2 / (n : ℝ) ≤ sinDeg (180 / n) := by
      unfold sinDeg
      have e : (180 : ℝ) / n * (Real.pi / 180) = Real.pi / n := by field_simp
      rw [e]
      have := Real.mul_le_sin (x := Real.pi / n) (by positivity) (div_le_div_of_nonneg_left hpi.le (by norm_num) (by linarith))
      refine le_trans (le_of_eq ?_) this
      field_simp
    have hsin0 : 0 ≤ sinDeg (180 / n) := le_trans (by positivity) hsin
    have hm0 : 0 < n ^ 2 * M / 2 ^ 40 := by positivity
    rw [y1, y2, add_sub_add_left_eq_sub] at hd
    have bc : ∀ ρ t : ℝ, |ρ * cosDeg t| ≤ |ρ| := fun ρ t => by
      rw [abs_mul]; exact mul_le_of_le_one_right (abs_nonneg _) (abs_cosDeg _)
    have hcross : ρ1 * cosDeg θ * (ρ2 * sinDeg (θ + 180 / n)) - ρ1 * sinDeg θ * (ρ2 * cosDeg (θ + 180 / n)) =
        ρ1 * ρ2 * sinDeg (180 / n) := by
      rw [sinDeg_add, cosDeg_add]
      have hq := cosDeg_sq_add θ
      linear_combination (ρ1 * ρ2 * sinDeg (180 / n)) * hq
    have habs : |ρ1| * |ρ2| * sinDeg (180 / n) = |ρ1 * ρ2 * sinDeg (180 / n)| := by
      rw [abs_mul, abs_mul, abs_of_nonneg hsin0]
    have low : 29 * (n * M / 2 ^ 45) ≤ n ^ 2 * M / 2 ^ 40 * sinDeg (180 / n) / 2 - 3 * (n * M / 2 ^ 45) := by
      have := mul_le_mul_of_nonneg_left hsin hm0.le
      have e : (n : ℝ) ^ 2 * M / 2 ^ 40 * (2 / n) = 64 * (n * M / 2 ^ 45) := by field_simp; ring
      rw [e] at this
      linarith only [this]
    have k1 := low.trans (level_side (bc ρ1 θ) (bc ρ2 (θ + 180 / n)) l1 l2 hm0 hsin0 (by rw [habs, hcross]) hd)
    have k2 := low.trans (level_side (bc ρ2 (θ + 180 / n)) (bc ρ1 θ) l2 l1 hm0 hsin0 (x1 := ρ2 * cosDeg (θ + 180 / n))
      (y1 := ρ2 * sinDeg (θ + 180 / n)) (y2 := ρ1 * sinDeg θ) (by
        rw [mul_comm |ρ2|, habs, ← hcross, abs_sub_comm]; congr 1; ring) (by rw [abs_sub_comm]; exact hd))
    have fin : ∀ (A : Double) (ρ t : ℝ), |A.real - (c.y.real + ρ * t - c.y.real)| ≤ n * M / 2 ^ 46 → |t| ≤ 1 → |ρ| ≤ M →
        29 * (n * M / 2 ^ 45) ≤ |ρ * t| → ∃ k : ℤ, (A + c.y).val = k * 2 ^ (-400 : ℤ) := by
      intro A ρ t h1 h2 h4 h3
      rw [add_sub_cancel_left] at h1
      have t1 := abs_sub_abs_le_abs_sub (ρ * t) A.real
      rw [abs_sub_comm] at t1
      have t2 := abs_sub_abs_le_abs_sub A.real (ρ * t)
      have t4 : |ρ * t| ≤ M := by rw [abs_mul]; exact (mul_le_of_le_one_right (abs_nonneg _) h2).trans h4
      have e46 : n * M / 2 ^ 46 = (n * M / 2 ^ 45) / 2 := by ring
      have small : (n : ℝ) * M / 2 ^ 46 ≤ M := by
        have n40 : (n : ℝ) ≤ 2 ^ 40 := by exact_mod_cast hn'
        have := mul_le_mul_of_nonneg_right n40 M0.le
        clear hM hM'
        norm_num at this ⊢
        linarith only [this, M0]
      have nM0 : 0 ≤ n * M / 2 ^ 45 := by positivity
      have lo : M / 2 ^ 45 ≤ |A.real| := by
        have : M / 2 ^ 45 ≤ n * M / 2 ^ 45 := div_le_div_of_nonneg_right (by linarith only [nM, M0]) (by positivity)
        linarith only [t1, h3, h1, e46, this, nM0]
      have hi : |A.real| ≤ 2 * M := by linarith only [t2, t4, h1, small]
      have e501 : (2 : ℝ) ^ 501 = 2 * 2 ^ 500 := by rw [pow_succ]; ring
      refine add_mult (by norm_num) (by norm_num) ?_ ?_ ?_
      · apply (Rat.cast_le (K := ℝ)).mp
        push_cast
        refine hi.trans (le_trans ?_ (pow_le_real (show 501 ≤ 1022 by norm_num)))
        rw [e501]
        exact mul_le_mul_of_nonneg_left hM' (by norm_num)
      · apply (Rat.cast_le (K := ℝ)).mp
        push_cast
        exact hc.2.trans (hM'.trans (pow_le_real (by norm_num)))
      · apply (Rat.cast_le (K := ℝ)).mp
        push_cast
        refine le_trans (le_trans ?_ (div_le_div_of_nonneg_right hM (by positivity))) lo
        rw [show (-346 : ℤ) = -((346 : ℕ) : ℤ) by norm_num, zpow_neg, zpow_natCast, ← one_div, div_div, ← pow_add]
        exact inv_pow_le (by norm_num)
    have m1 := fin A1 _ _ (by rw [← y1]; exact b1) (abs_sinDeg _) u1 k1
    have m2 := fin A2 _ _ (by rw [← y2]; exact b2) (abs_sinDeg _) u2 k2
    rw [← a1] at m1
    rw [← a2] at m2
    have := mult_apart m1 m2 (fun hv => hneq (Fl.ext hv))
    refine le_trans ?_ this
    rw [show (-400 : ℤ) = -((400 : ℕ) : ℤ) by norm_num, zpow_neg, zpow_natCast, ← one_div]
    exact one_div_le_one_div_of_le (by positivity) (pow_le_pow_right₀ (by norm_num) (by norm_num))
  · apply (Rat.cast_le (K := ℝ)).mp
    push_cast
    push Not at hd
    have t := abs_sub_le (E.2.y - E.1.y) (e.2.y.real - e.1.y.real) 0
    rw [sub_zero, sub_zero] at t
    have t' : |E.2.y - E.1.y - (e.2.y.real - e.1.y.real)| ≤ n * M / 2 ^ 45 + n * M / 2 ^ 45 := by
      rw [show E.2.y - E.1.y - (e.2.y.real - e.1.y.real) = (e.1.y.real - E.1.y) - (e.2.y.real - E.2.y) by ring]
      exact (abs_sub _ _).trans (add_le_add h1 h2)
    have big : n * M / 2 ^ 45 ≤ |e.2.y.real - e.1.y.real| := by linarith only [t, t', hd]
    refine le_trans ?_ big
    have : M / 2 ^ 45 ≤ n * M / 2 ^ 45 := div_le_div_of_nonneg_right (by linarith only [nM, M0]) (by positivity)
    refine le_trans ?_ this
    refine le_trans (inv_pow_le (show 345 ≤ 500 by norm_num)) ?_
    rw [show (345 : ℕ) = 300 + 45 by norm_num, inv_pow_split, div_eq_mul_one_div M]
    exact mul_le_mul_of_nonneg_right hM (by positivity)

/-- **C82** `Polygon.star(n, r1, r2, c, a)` in double precision (with the radii it stores to decide quickly), whatever was read or
asked before: it contains a point farther than `n * M / 2 ^ 43` from the edges of the exact star exactly when the exact star winds
around it. (`M` bounds the coordinates and the radii; the radii are not tiny beside it. When the radii have the same sign, as for
all sensible stars, the star is so sharp that no edge comes nearer to the centre than the inner vertices: otherwise the smaller
radius decides wrongly even without rounding, C53.) -/
theorem C82_star (eps : Double) (n : ℕ) (hn : 2 ≤ n) (M : ℚ) (hM : 1 / 2 ^ 300 ≤ M) (hM' : M ≤ 2 ^ 500) (r1 r2 a : Double)
    (hne : r1 ≠ r2) (c : Vec2 Double) (ha : |a.val| ≤ 720) (hr1 : |r1.val| ≤ M) (hr2 : |r2.val| ≤ M)
    (hl1 : n ^ 2 * M / 2 ^ 40 ≤ |r1.val|) (hl2 : n ^ 2 * M / 2 ^ 40 ≤ |r2.val|)
    (hsharp : n = 2 ∨ r1.val * r2.val < 0 ∨ min |r1.real| |r2.real| ≤ max |r1.real| |r2.real| * cosDeg (180 / n))
    (hc : |c.x.val| ≤ M ∧ |c.y.val| ≤ M)
    (ops : List (PolyOp Double)) (hops : ∀ op ∈ ops, PlainRead op) (p : PyPoint Double)
    (hp : |p.toVec.x.val| ≤ M ∧ |p.toVec.y.val| ≤ M) :
    ∃ s, Polygon.star (n : ℤ) r1 r2 c a = .ok s ∧ (
      FarFromEdges (n * (M : ℝ) / 2 ^ 43) (starPoints n (toReal c) r1.real r2.real a.real) (toReal p.toVec) →
      ((s.after eps ops).containsPoint eps p).1 =
        .ok (winding (starPoints n (toReal c) r1.real r2.real a.real) (toReal p.toVec) != 0)) := by
  have cst : ∀ {x y : ℚ}, x ≤ y → (x : ℝ) ≤ (y : ℝ) := fun h => by exact_mod_cast h
  have hMr : 1 / 2 ^ 300 ≤ (M : ℝ) := by have := cst hM; push_cast at this; exact this
  have hMr' : (M : ℝ) ≤ 2 ^ 500 := by have := cst hM'; push_cast at this; exact this
  have har : |a.real| ≤ 720 := by have := cst ha; push_cast at this; exact this
  have hrr1 : |r1.real| ≤ M := by have := cst hr1; push_cast at this; exact this
  have hrr2 : |r2.real| ≤ M := by have := cst hr2; push_cast at this; exact this
  have hll1 : n ^ 2 * (M : ℝ) / 2 ^ 40 ≤ |r1.real| := by have := cst hl1; push_cast at this; exact this
  have hll2 : n ^ 2 * (M : ℝ) / 2 ^ 40 ≤ |r2.real| := by have := cst hl2; push_cast at this; exact this
  have hcr : Within (M : ℝ) c := ⟨by have := cst hc.1; push_cast at this; exact this, by have := cst hc.2; push_cast at this; exact this⟩
  have hpr : Within (M : ℝ) p.toVec := ⟨by have := cst hp.1; push_cast at this; exact this, by have := cst hp.2; push_cast at this; exact this⟩
  have M0 : 0 < (M : ℝ) := lt_of_lt_of_le (by positivity) hMr
  have n2 : (2 : ℝ) ≤ n := by exact_mod_cast hn
  have nM : 2 * (M : ℝ) ≤ n * M := mul_le_mul_of_nonneg_right n2 M0.le
  have hlow : 2 * (M : ℝ) / 2 ^ 40 ≤ n ^ 2 * (M : ℝ) / 2 ^ 40 :=
    div_le_div_of_nonneg_right (mul_le_mul_of_nonneg_right (by nlinarith) M0.le) (by positivity)
  have hn' : n ≤ 2 ^ 40 := by
    have h : n * (M : ℝ) / 2 ^ 40 ≤ M :=
      ((div_le_div_of_nonneg_right (mul_le_mul_of_nonneg_right (by nlinarith) M0.le) (by positivity)).trans hll1).trans hrr1
    rw [div_le_iff₀ (by positivity), mul_comm] at h
    have := le_of_mul_le_mul_left h M0
    exact_mod_cast this
  obtain ⟨s, hs, -⟩ := C81_star n hn hn' r1 r2 a c har (hrr1.trans hMr') (hrr2.trans hMr') ⟨hcr.1.trans hMr', hcr.2.trans hMr'⟩
  refine ⟨s, hs, fun hfar => ?_⟩
  have hh := star_heights hn hn' hMr hMr' hne har hrr1 hrr2 hll1 hll2 hcr hs
  obtain ⟨hl, hV, hw⟩ := star_moved hn hn' hMr hMr' har hrr1 hrr2 hcr hs
  have hm4 : ∀ v ∈ p.toVec :: s.verts, |v.x.val| ≤ 4 * M ∧ |v.y.val| ≤ 4 * M := by
    have back : ∀ x : Double, |x.real| ≤ 4 * (M : ℝ) → |x.val| ≤ 4 * M := by
      intro x hx
      apply (Rat.cast_le (K := ℝ)).mp
      push_cast; exact hx
    intro v hv
    rcases List.mem_cons.mp hv with rfl | hv
    · exact ⟨back _ (hpr.1.trans (by linarith only [M0])), back _ (hpr.2.trans (by linarith only [M0]))⟩
    · have := hw v hv
      exact ⟨back _ (this.1.trans (by linarith only [M0])), back _ (this.2.trans (by linarith only [M0]))⟩
  have hfar4 : FarFromEdges (n * (M : ℝ) / 2 ^ 45 + ((4 * M : ℚ) : ℝ) / 2 ^ 48) (starPoints n (toReal c) r1.real r2.real a.real) (toReal p.toVec) := by
    intro E hE q hq
    refine lt_of_le_of_lt ?_ (hfar E hE q hq)
    push_cast
    clear hMr hMr' hll1 hll2 hlow hV
    norm_num
    linarith only [nM, M0]
  have M0q : 0 < M := by exact_mod_cast M0
  have hM4 : 1 / 2 ^ 500 ≤ 4 * M :=
    le_trans (one_div_le_one_div_of_le (by positivity) (pow_le_pow_right₀ (by norm_num) (show 300 ≤ 500 by norm_num))) (hM.trans (by linarith only [M0q]))
  have hM4' : 4 * M ≤ 2 ^ 510 := by
    have e : (2 : ℚ) ^ 510 = 1024 * 2 ^ 500 := by rw [show (510 : ℕ) = 10 + 500 by norm_num, pow_add]; norm_num
    rw [e]
    exact le_trans (b := 1024 * M) (by linarith only [M0q]) (mul_le_mul_of_nonneg_left hM' (by norm_num))
  obtain ⟨hK, hy, -⟩ := star_kept hn hn' hne hs
  have hK := hK.after eps ops hops
  have hy := (Kept.unsplit_after hy eps ops hops).2
  have plain : ((Polygon.fromPoints s.verts).containsPoint eps p).1 =
      .ok (winding (starPoints n (toReal c) r1.real r2.real a.real) (toReal p.toVec) != 0) := by
    obtain ⟨t, ht, h⟩ := contains_near eps hM4 hM4' (by omega) hV p hm4 hh hfar4
    have hl : ¬ s.verts.length < 3 := by omega
    have hm1 : s.verts.map Vec2.copy = s.verts := List.map_id'' Vec2.copy_fl _
    unfold Polygon.new at ht
    simp only [hm1, hl, if_false] at ht
    have : t = Polygon.fromPoints s.verts := (Except.ok.inj ht).symm
    rw [← this]; exact h
  have notShort := fun hrad => (hK.contains_which (by omega) eps p hrad).resolve_left (fun h => h.1 hy)
  have p1 : 0 < |r1.real| := lt_of_lt_of_le (by positivity) hll1
  have p2 : 0 < |r2.real| := lt_of_lt_of_le (by positivity) hll2
  have z1 : r1.val ≠ 0 := by
    intro h; rw [Fl.real, h] at p1; simp at p1
  have z2 : r2.val ≠ 0 := by
    intro h; rw [Fl.real, h] at p2; simp at p2
  have dgt : ∀ r : Double, decide (r > 0) = decide (0 < r.val) := by
    intro r; rw [decide_eq_decide, gt_iff_lt, Fl.lt_iff, Fl.zero_val]
  have dge : ∀ r : Double, decide (r ≥ 0) = decide (0 ≤ r.val) := by
    intro r; rw [decide_eq_decide, ge_iff_le, Fl.le_iff, Fl.zero_val]
  simp only [dgt, dge] at hK notShort
  rcases lt_or_gt_of_ne (mul_ne_zero z1 z2) with hneg | hpos
  · rw [← plain]
    refine notShort (.inl ?_)
    rw [if_neg]
    rcases mul_neg_iff.mp hneg with ⟨h1, h2⟩ | ⟨h1, h2⟩
    · simp [h1, not_lt.mpr h2.le]
    · simp [h2, not_lt.mpr h1.le]
  have hcen : (decide (0 < r1.val) == decide (0 < r2.val)) = true ∧ (decide (0 ≤ r1.val) == decide (0 ≤ r2.val)) = true := by
    rcases mul_pos_iff.mp hpos with ⟨h1, h2⟩ | ⟨h1, h2⟩
    · simp [h1, h2, h1.le, h2.le]
    · simp [not_lt.mpr h1.le, not_lt.mpr h2.le, not_le.mpr h1, not_le.mpr h2]
  simp only [hcen.1, hcen.2, if_true] at hK notShort
  by_cases h2 : n = 2
  · rw [← plain]
    exact notShort (.inr ⟨c, rfl, fun h => by omega⟩)
  have n3 : 3 ≤ n := by omega
  have n3r : (3 : ℝ) ≤ n := by exact_mod_cast n3
  have hsh := (hsharp.resolve_left h2).resolve_left (not_lt.mpr hpos.le)
  have hposr : 0 < r1.real * r2.real := by
    unfold Fl.real; exact_mod_cast hpos
  -- the stored radii
  have ab : ∀ r : Double, (pyabs r).real = |r.real| := by
    intro r
    unfold pyabs
    split_ifs with h
    · rw [Fl.lt_iff, Fl.zero_val] at h
      have : r.real < 0 := by unfold Fl.real; exact_mod_cast h
      rw [abs_of_neg this]
      rw [Fl.real, Fl.neg_val]; push_cast; rfl
    · rw [Fl.lt_iff, Fl.zero_val, not_lt] at h
      have : 0 ≤ r.real := by unfold Fl.real; exact_mod_cast h
      rw [abs_of_nonneg this]
  have hmin : |(pymin (pyabs r1) (pyabs r2)).real| = min |r1.real| |r2.real| := by
    unfold pymin
    split_ifs with h
    · rw [← real_lt, ab, ab] at h
      rw [ab, abs_abs, min_eq_right h.le]
    · rw [← real_lt, ab, ab, not_lt] at h
      rw [ab, abs_abs, min_eq_left h]
  have hmax : |(pymax (pyabs r1) (pyabs r2)).real| = max |r1.real| |r2.real| := by
    unfold pymax
    split_ifs with h
    · rw [← real_lt, ab, ab] at h
      rw [ab, abs_abs, max_eq_right h.le]
    · rw [← real_lt, ab, ab, not_lt] at h
      rw [ab, abs_abs, max_eq_left h]
  have lowr : 1 / (2 : ℝ) ^ 500 ≤ n ^ 2 * (M : ℝ) / 2 ^ 40 := by
    refine le_trans ?_ hlow
    refine le_trans (inv_pow_le (show 340 ≤ 500 by norm_num)) ?_
    rw [show (340 : ℕ) = 300 + 40 by norm_num, inv_pow_split]
    have : (M : ℝ) * (1 / 2 ^ 40) ≤ 2 * M / 2 ^ 40 := by
      rw [mul_one_div]; exact div_le_div_of_nonneg_right (by linarith only [M0]) (by positivity)
    exact (mul_le_mul_of_nonneg_right hMr (by positivity)).trans this
  obtain ⟨d1, -⟩ := radius_decides hMr' (R := pymin (pyabs r1) (pyabs r2)) (by rw [hmin]; exact (min_le_left _ _).trans hrr1)
    (by rw [hmin]; exact le_min (lowr.trans hll1) (lowr.trans hll2)) hcr hpr
  obtain ⟨-, d2⟩ := radius_decides hMr' (R := pymax (pyabs r1) (pyabs r2)) (by rw [hmax]; exact max_le hrr1 hrr2)
    (by rw [hmax]; exact le_max_of_le_left (lowr.trans hll1)) hcr hpr
  rw [hmin] at d1
  rw [hmax] at d2
  have hR := starPoints_radial n (by omega) (toReal c) r1.real r2.real a.real
  have hlV : (starPoints n (toReal c) r1.real r2.real a.real).length = 2 * n := by simp [starPoints]
  have D0 : 0 ≤ n * (M : ℝ) / 2 ^ 43 := by positivity
  have D1 : (M : ℝ) / 2 ^ 49 ≤ n * (M : ℝ) / 2 ^ 43 := by
    clear hMr hMr' hll1 hll2 hlow hV lowr
    norm_num
    linarith only [nM, M0]
  obtain ⟨c1, c2⟩ := hK.contains_shortcut (by omega) eps p
  by_cases hd1 : (c - p.toVec).length2 < pymin (pyabs r1) (pyabs r2) * pymin (pyabs r1) (pyabs r2)
  · rw [c1 _ rfl hd1]
    have hm0 : 0 < min |r1.real| |r2.real| := lt_min p1 p2
    have hsq : ∀ r : ℝ, min |r1.real| |r2.real| ≤ |r| → min |r1.real| |r2.real| * min |r1.real| |r2.real| ≤ r * r := by
      intro r hr
      rw [← abs_mul_abs_self r]
      exact mul_self_le_mul_self hm0.le hr
    have hprod : min |r1.real| |r2.real| * max |r1.real| |r2.real| = r1.real * r2.real := by
      rw [min_mul_max, ← abs_mul, abs_of_pos hposr]
    have hpc : min |r1.real| |r2.real| * min |r1.real| |r2.real| ≤ r1.real * r2.real * cosDeg (180 / n) := by
      have := mul_le_mul_of_nonneg_left hsh hm0.le
      rwa [← mul_assoc, hprod] at this
    have hwind := radial_in hR (by rw [ne_eq, ← List.length_eq_zero_iff, hlV]; omega)
      (sinDeg_pos (by positivity) (by rw [div_lt_iff₀ (by linarith only [n3r])]; linarith only [n3r])) (by
        intro i hi
        rw [hlV]
        rcases star_edge_radii (n := n) (by omega) r1.real r2.real i with ⟨e1, e2⟩ | ⟨e1, e2⟩ <;> rw [e1, e2]
        · exact hposr
        · rw [mul_comm]; exact hposr) hm0 D0 (by
        intro e he x hx
        obtain ⟨i, hi, θ, rfl⟩ := hR.edge he
        rw [hlV] at hx
        rcases star_edge_radii (n := n) (by omega) r1.real r2.real i with ⟨e1, e2⟩ | ⟨e1, e2⟩ <;> rw [e1, e2] at hx
        · exact edge_min_le hx (hsq _ (min_le_left _ _)) (hsq _ (min_le_right _ _)) hpc
        · exact edge_min_le hx (hsq _ (min_le_right _ _)) (hsq _ (min_le_left _ _)) (by rw [mul_comm r2.real r1.real]; exact hpc))
      (lt_of_lt_of_le (d1 hd1) (by linarith only [D1])) hfar
    simp [hwind]
  by_cases hd2 : (c - p.toVec).length2 > pymax (pyabs r1) (pyabs r2) * pymax (pyabs r1) (pyabs r2)
  · rw [c2 (fun r' e => by rw [← Option.some.inj e]; exact hd1) _ rfl hd2]
    have hwind := radial_out hR D0 (R := max |r1.real| |r2.real|) (by
        refine le_trans ?_ (le_max_left _ _)
        refine le_trans ?_ hll1
        have : (n : ℝ) * M ≤ n ^ 2 * M := mul_le_mul_of_nonneg_right (by nlinarith only [n2]) M0.le
        exact div_le_div₀ (by positivity) this (by positivity) (pow_le_real (by norm_num))) (by
        intro i _
        rw [← abs_mul_abs_self]
        split_ifs
        · exact mul_self_le_mul_self (abs_nonneg _) (le_max_left _ _)
        · exact mul_self_le_mul_self (abs_nonneg _) (le_max_right _ _))
      (lt_of_le_of_lt (by linarith only [D1]) (d2 hd2)) hfar
    simp [hwind]
  rw [← plain]
  exact notShort (.inr ⟨c, rfl, fun _ => ⟨fun r' e => by rw [← Option.some.inj e]; exact hd1,
    fun r' e => by rw [← Option.some.inj e]; exact hd2⟩⟩)

/-- `C82_star` with five peaks, the radii two and one half, and `M = 4`: a point near the centre, which is inside. -/
example (eps : Double) : let r1 := dbl 2; let r2 := dbl (1 / 2); let a := dbl 30; let c := dvec 1 2; let p := PyPoint.vec (dvec (5 / 4) 2)
    r1 ≠ r2 ∧ |a.val| ≤ 720 ∧ (|r1.val| ≤ 4 ∧ |r2.val| ≤ 4) ∧ ((5 : ℕ) : ℚ) ^ 2 * 4 / 2 ^ 40 ≤ |r1.val| ∧
    ((5 : ℕ) : ℚ) ^ 2 * 4 / 2 ^ 40 ≤ |r2.val| ∧
    min |r1.real| |r2.real| ≤ max |r1.real| |r2.real| * cosDeg (180 / (5 : ℕ)) ∧ (|c.x.val| ≤ 4 ∧ |c.y.val| ≤ 4) ∧
    (|p.toVec.x.val| ≤ 4 ∧ |p.toVec.y.val| ≤ 4) ∧
    FarFromEdges (((5 : ℕ) : ℝ) * ((4 : ℚ) : ℝ) / 2 ^ 43) (starPoints 5 (toReal c) r1.real r2.real a.real) (toReal p.toVec) ∧
    winding (starPoints 5 (toReal c) r1.real r2.real a.real) (toReal p.toVec) ≠ 0 ∧
    ∃ s, Polygon.star (5 : ℕ) r1 r2 c a = .ok s ∧ (s.containsPoint eps p).1 = .ok true := by
  intro r1 r2 a c p
  have hv : r1.val ≠ r2.val ∧ |a.val| ≤ 720 ∧ (|r1.val| ≤ 4 ∧ |r2.val| ≤ 4) ∧ ((5 : ℕ) : ℚ) ^ 2 * 4 / 2 ^ 40 ≤ |r1.val| ∧
    ((5 : ℕ) : ℚ) ^ 2 * 4 / 2 ^ 40 ≤ |r2.val| ∧ (|c.x.val| ≤ 4 ∧ |c.y.val| ≤ 4) ∧
    (|p.toVec.x.val| ≤ 4 ∧ |p.toVec.y.val| ≤ 4) ∧ r1.val = 2 ∧ r2.val = 1 / 2 ∧ c.x.val = 1 ∧ c.y.val = 2 ∧
    p.toVec.x.val = 5 / 4 ∧ p.toVec.y.val = 2 := by
    decide +kernel
  obtain ⟨h0, h1, h2, h3, h3', h4, h5, h6, h6', h7, h8, h9, h10⟩ := hv
  have hr1 : r1.real = 2 := by unfold Fl.real; rw [h6]; norm_num
  have hr2 : r2.real = 1 / 2 := by unfold Fl.real; rw [h6']; norm_num
  have hg : gap (toReal p.toVec) (toReal c) = 1 / 4 := by
    unfold gap vlen toReal Fl.real
    rw [h7, h8, h9, h10]
    rw [show ((((5 / 4 : ℚ) : ℝ) - ((1 : ℚ) : ℝ)) * (((5 / 4 : ℚ) : ℝ) - ((1 : ℚ) : ℝ)) + (((2 : ℚ) : ℝ) - ((2 : ℚ) : ℝ)) * (((2 : ℚ) : ℝ) - ((2 : ℚ) : ℝ))) =
      (1 / 4) * (1 / 4) by norm_num]
    exact Real.sqrt_mul_self (by norm_num)
  have k8 := cosDeg_36 (n := 5) le_rfl
  have hmm : min |r1.real| |r2.real| = 1 / 2 ∧ max |r1.real| |r2.real| = 2 := by
    rw [hr1, hr2, abs_of_pos (show (0 : ℝ) < 2 by norm_num), abs_of_pos (show (0 : ℝ) < 1 / 2 by norm_num)]
    exact ⟨min_eq_right (by norm_num), max_eq_left (by norm_num)⟩
  have hsh : min |r1.real| |r2.real| ≤ max |r1.real| |r2.real| * cosDeg (180 / (5 : ℕ)) := by
    rw [hmm.1, hmm.2]; linarith only [k8]
  have hR := starPoints_radial 5 (by norm_num) (toReal c) r1.real r2.real a.real
  have hl : (starPoints 5 (toReal c) r1.real r2.real a.real).length = 2 * 5 := by simp [starPoints]
  have f3 : ∀ e ∈ edges (starPoints 5 (toReal c) r1.real r2.real a.real), ∀ x, OnEdge e x → (1 / 2 : ℝ) * (1 / 2) ≤ d2 x (toReal c) := by
    intro e he x hx
    obtain ⟨i, hi, θ, rfl⟩ := hR.edge he
    rw [hl] at hx
    rcases star_edge_radii (n := 5) (by norm_num) r1.real r2.real i with ⟨e1, e2⟩ | ⟨e1, e2⟩ <;> rw [e1, e2, hr1, hr2] at hx
    · exact edge_min_le hx (by norm_num) (by norm_num) (by linarith only [k8])
    · exact edge_min_le hx (by norm_num) (by norm_num) (by linarith only [k8])
  have hfar : FarFromEdges (((5 : ℕ) : ℝ) * ((4 : ℚ) : ℝ) / 2 ^ 43) (starPoints 5 (toReal c) r1.real r2.real a.real) (toReal p.toVec) := by
    intro E hE q hq
    have := f3 E hE q hq
    rw [← gap_d2] at this
    have g := (mul_self_le_mul_self_iff (by norm_num) (gap_nonneg _ _)).mpr this
    have t := gap_triangle q (toReal p.toVec) (toReal c)
    rw [Polygon.gap_comm q (toReal p.toVec), hg] at t
    norm_num
    linarith
  have hin : winding (starPoints 5 (toReal c) r1.real r2.real a.real) (toReal p.toVec) ≠ 0 := by
    refine radial_in hR (by rw [ne_eq, ← List.length_eq_zero_iff, hl]; norm_num)
      (sinDeg_pos (by norm_num) (by norm_num)) (fun i _ => ?_) (m := 1 / 2) (by norm_num) (by norm_num) f3 ?_ hfar
    · rw [hl]
      rcases star_edge_radii (n := 5) (by norm_num) r1.real r2.real i with ⟨e1, e2⟩ | ⟨e1, e2⟩ <;> rw [e1, e2, hr1, hr2] <;> norm_num
    · rw [hg]
      have : (0 : ℝ) ≤ (5 : ℕ) * ((4 : ℚ) : ℝ) / 2 ^ 43 := by norm_num
      linarith only [this]
  have hne : r1 ≠ r2 := fun h => h0 (by rw [h])
  refine ⟨hne, h1, h2, h3, h3', hsh, h4, h5, hfar, hin, ?_⟩
  obtain ⟨s, hs, hc⟩ := C82_star eps 5 (by norm_num) 4 ((div_le_one (by positivity)).mpr (one_le_pow₀ (by norm_num)) |>.trans (by norm_num))
    (le_trans (by norm_num) (pow_le_pow_right₀ (by norm_num) (show 2 ≤ 500 by norm_num))) r1 r2 a hne c h1 h2.1 h2.2 h3 h3'
    (.inr (.inr hsh)) h4 [] (by simp) p h5
  refine ⟨s, hs, ?_⟩
  have := hc hfar
  rw [show s.after eps [] = s from rfl] at this
  rw [this]
  simp [hin]

end Planar
