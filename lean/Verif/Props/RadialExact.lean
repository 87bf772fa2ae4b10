import Verif.Props.RadialShape
import Verif.Props.AllPolys
/- Property C53: `contains_point` of regular polygons and stars at every point. -/
set_option linter.unusedSectionVars false
namespace Planar
open Spec
open Polygon

variable {c : Vec2 ℝ} {ρ : ℕ → ℝ} {a s : ℝ} {L : List (Vec2 ℝ)}

/-- All vertices in one point. -/
theorem convex_const {K : Type} [Field K] [LinearOrder K] {vs : List (Vec2 K)} {c : Vec2 K} (h : ∀ v ∈ vs, v = c) :
    Convex vs ∧ Flat vs := by
  have he : ∀ e ∈ edges vs, e.1 = c ∧ e.2 = c := fun e hm => ⟨h _ (edges_mem hm).1, h _ (edges_mem hm).2⟩
  refine ⟨⟨.inl fun e hm v hv => ?_, edges vs, [], by rw [List.append_nil], fun e hm => ?_, by simp⟩, fun x hx y hy z hz => ?_⟩
  · rw [(he e hm).1, (he e hm).2, h v hv]; simp [side]
  · rw [(he e hm).1, (he e hm).2]; exact .inr ⟨rfl, le_rfl⟩
  · rw [h x hx, h y hy, h z hz]; simp [side]

theorem IsRadial.convexAll (h : IsRadial c ρ a s L) {r : ℝ} (hr : ∀ i < L.length, ρ i = r) (hs : 0 < s) (hs' : s < 360)
    (hL : 0 < L.length) : Convex L ∧ (s < 90 → Flat L ∨ Clear L) := by
  by_cases h0 : r = 0
  · have : ∀ v ∈ L, v = c := by
      intro v hv
      obtain ⟨k, hk, rfl⟩ := List.getElem_of_mem hv
      rw [h.at_ k hk, hr k hk, h0]
      unfold circ; apply Vec2.ext <;> simp
    exact ⟨(convex_const this).1, fun _ => .inl (convex_const this).2⟩
  · exact ⟨h.convex' hr h0 hs hs' hL, fun h90 => .inr (h.clear' hr h0 hs h90 hL)⟩

/-- **C53** `contains_point` of a regular polygon with five or more vertices answers by the winding rule at every
point. -/
theorem C53_regular_exact (n : ℕ) (hn : 5 ≤ n) (r : ℝ) (c : Vec2 ℝ) (a : ℝ) (s : Polygon ℝ)
    (h : Polygon.regular (n : ℤ) r c a = .ok s) (eps : ℝ) (pt : PyPoint ℝ) :
    (s.containsPoint eps pt).1 = .ok (winding s.verts pt.toVec != 0) := by
  obtain ⟨i1, i2⟩ := C53_regular n hn r c a s h eps pt
  obtain ⟨s', q, hs, hq, he, hv⟩ := regular_eq n (by omega) r c a
  rw [h] at hs
  injection hs with hs
  subst hs
  have hsv : s.verts = regularVerts (360 / (n : ℝ)) r c n a := by rw [he]; exact hv
  have hR := regular_radial n (by omega) r c a
  have hl : (regularVerts (360 / (n : ℝ)) r c n a).length = n := regularVerts_length _ _ _ _ _
  have hn' : (5 : ℝ) ≤ n := by exact_mod_cast hn
  have hs0 : (0 : ℝ) < 360 / n := by positivity
  have hs1 : (360 : ℝ) / n < 90 := by rw [div_lt_iff₀ (by linarith)]; linarith
  have hhalf : cosDeg (180 / n) * cosDeg (180 / n) = (1 + cosDeg (360 / n)) / 2 := by
    have := cosDeg_half (360 / n)
    rwa [show (360 : ℝ) / n / 2 = 180 / n by ring] at this
  have hmid := midRadius_sq hR (by omega) rfl rfl
  by_cases hd1 : pt.toVec.distanceTo c < |r| * cosDeg (180 / n)
  · obtain ⟨e1, e2⟩ := i1 hd1
    rw [e1]; simp [e2]
  by_cases hd2 : |r| < pt.toVec.distanceTo c
  · obtain ⟨e1, e2⟩ := i2 hd2
    rw [e1, e2]; rfl
  rw [not_lt] at hd1 hd2
  have hcc : 0 ≤ cosDeg (180 / n) := by
    refine (cosDeg_pos ?_ ?_).le
    · have : (0 : ℝ) < 180 / n := by positivity
      linarith
    · rw [div_lt_iff₀ (by linarith)]; linarith
  have hyp : s.yPolylines = some (splitYPolylines s.verts) := by
    rw [new_eq _ _ _ (by rw [hl]; omega)] at hq
    injection hq with hq
    rw [hsv, he]
    simp only [← hq]
    rw [if_pos ⟨by rw [hl]; omega, trivial⟩]
  have hne : s.verts ≠ [] := by rw [ne_eq, ← List.length_eq_zero_iff, hsv, hl]; omega
  obtain ⟨g1, g2⟩ := hR.convexAll (r := r) (fun _ _ => rfl) hs0 (by linarith) (by omega)
  rw [← hsv] at g1 g2
  obtain ⟨b, hb, -, hb2⟩ := ymono_winding hne g1 pt.toVec
  rw [← hb2 (g2 hs1), ← hb]
  refine (contains_between (by rw [hsv, hl]; omega) (by rw [he]) pt ?_ ?_).1 _ hyp
  · rintro - r' hr'
    rw [he] at hr'
    simp only [hv, hmid, Option.some.injEq] at hr'
    rw [← hr', ← hhalf, ← d2_dist, ← abs_mul_abs_self r]
    nlinarith [mul_nonneg (abs_nonneg r) hcc]
  · rintro - r' hr'
    rw [he] at hr'
    simp only [Option.some.injEq] at hr'
    rw [← hr', ← d2_dist, ← abs_mul_abs_self r]
    nlinarith [dist_nonneg' pt.toVec c]

/-- **C53** for a regular polygon with four or more vertices `contains_point` raises nothing and is True only where the
winding number is not 0. -/
theorem C53_regular_sound (n : ℕ) (hn : 4 ≤ n) (r : ℝ) (c : Vec2 ℝ) (a : ℝ) (s : Polygon ℝ)
    (h : Polygon.regular (n : ℤ) r c a = .ok s) (eps : ℝ) (pt : PyPoint ℝ) :
    ∃ b, (s.containsPoint eps pt).1 = .ok b ∧ (b = true → winding s.verts pt.toVec ≠ 0) := by
  by_cases h5 : 5 ≤ n
  · exact ⟨_, C53_regular_exact n h5 r c a s h eps pt, by simp⟩
  have hn4 : n = 4 := by omega
  obtain ⟨s', q, hs, hq, he, hv⟩ := regular_eq n (by omega) r c a
  rw [h] at hs
  injection hs with hs
  subst hs
  have hsv : s.verts = regularVerts (360 / (n : ℝ)) r c n a := by rw [he]; exact hv
  have hR := regular_radial n (by omega) r c a
  have hl : (regularVerts (360 / (n : ℝ)) r c n a).length = n := regularVerts_length _ _ _ _ _
  have hyp : s.yPolylines = some (splitYPolylines s.verts) := by
    rw [new_eq _ _ _ (by rw [hl]; omega)] at hq
    injection hq with hq
    rw [hsv, he]
    simp only [← hq]
    rw [if_pos ⟨by rw [hl]; omega, trivial⟩]
  have hne : s.verts ≠ [] := by rw [ne_eq, ← List.length_eq_zero_iff, hsv, hl]; omega
  have hn' : (4 : ℝ) ≤ n := by exact_mod_cast hn
  have hs0 : (0 : ℝ) < 360 / n := by positivity
  have hs1 : (360 : ℝ) / n < 360 := by rw [div_lt_iff₀ (by linarith)]; linarith
  obtain ⟨g1, g2⟩ := hR.convexAll (r := r) (fun _ _ => rfl) hs0 hs1 (by omega)
  rw [← hsv] at g1 g2
  obtain ⟨b, hb, hb1, -⟩ := ymono_winding hne g1 pt.toVec
  refine ⟨b, ?_, hb1⟩
  rw [← hb]
  refine (contains_between (by rw [hsv, hl]; omega) (by rw [he]) pt ?_ ?_).1 _ hyp
  · intro hx; rw [hsv, hl] at hx; omega
  · intro hx; rw [hsv, hl] at hx; omega

/-- **C53** regular triangles whose sides (`√3 |r|`) are not shorter than EPSILON answer by the winding rule. -/
theorem C53_regular_triangle (r : ℝ) (c : Vec2 ℝ) (a : ℝ) (s : Polygon ℝ)
    (h : Polygon.regular 3 r c a = .ok s) (eps : ℝ) (he : eps * eps ≤ 3 * (r * r)) (p : Vec2 ℝ) :
    (s.containsPoint eps (.vec p)).1 = .ok (winding s.verts p != 0) := by
  obtain ⟨s', q, hs, hq, hes, hv⟩ := regular_eq 3 (by omega) r c a
  rw [show ((3 : ℕ) : ℤ) = 3 from rfl, h] at hs
  injection hs with hs
  subst hs
  have hsv : s.verts = regularVerts (360 / ((3 : ℕ) : ℝ)) r c 3 a := by rw [hes]; exact hv
  have hR := regular_radial 3 (by omega) r c a
  have hl := regularVerts_length (360 / ((3 : ℕ) : ℝ)) r c 3 a
  have htri : s.triTest = none := by
    rw [new_eq _ _ _ (by rw [hl])] at hq
    injection hq with hq
    rw [hes, ← hq]
    simp [cleared]
  have hside : ∀ i j, i < 3 → j < 3 → i < j → ∀ P Q, P = circ c r (a + (i : ℕ) * (360 / ((3 : ℕ) : ℝ))) → Q = circ c r (a + (j : ℕ) * (360 / ((3 : ℕ) : ℝ))) →
      (P.x - Q.x) * (P.x - Q.x) + (P.y - Q.y) * (P.y - Q.y) = 3 * (r * r) := by
    rintro i j hi hj hij P Q rfl rfl
    have hcos : cosDeg ((j - i) * 120) = -1 / 2 := by
      have c120 : cosDeg 120 = -1 / 2 := by
        rw [show (120 : ℝ) = 60 + 60 by norm_num, cosDeg_add, cosDeg_60, sinDeg_60]
        have := Real.mul_self_sqrt (show (0 : ℝ) ≤ 3 by norm_num)
        nlinarith
      have s120 : sinDeg 120 = √3 / 2 := by
        rw [show (120 : ℝ) = 60 + 60 by norm_num, sinDeg_add, cosDeg_60, sinDeg_60]; ring
      have hij' : (j - i = 1) ∨ (j - i = 2) := by omega
      rcases hij' with h | h
      · have : (j : ℝ) - i = 1 := by rw [← Nat.cast_sub hij.le, h]; norm_num
        rw [this, one_mul, c120]
      · have : (j : ℝ) - i = 2 := by rw [← Nat.cast_sub hij.le, h]; norm_num
        rw [this, show (2 : ℝ) * 120 = 120 + 120 by norm_num, cosDeg_add, c120, s120]
        have := Real.mul_self_sqrt (show (0 : ℝ) ≤ 3 by norm_num)
        nlinarith
    have e : a + (j : ℝ) * (360 / ((3 : ℕ) : ℝ)) = (a + (i : ℝ) * (360 / ((3 : ℕ) : ℝ))) + (j - i) * 120 := by
      push_cast; ring
    rw [e]
    generalize a + (i : ℝ) * (360 / ((3 : ℕ) : ℝ)) = θ
    have u1 := cosDeg_sq_add θ
    have u2 := cosDeg_sq_add (((j : ℝ) - i) * 120)
    simp only [circ, cosDeg_add, sinDeg_add]
    rw [hcos] at u2 ⊢
    linear_combination (r * r * (9 / 4 + sinDeg (((j : ℝ) - i) * 120) * sinDeg (((j : ℝ) - i) * 120))) * u1 + r * r * u2
  have hw : Wide eps s.verts := by
    right
    refine ⟨by rw [hsv, hl], ?_⟩
    rw [hsv, List.pairwise_iff_getElem]
    intro i j hi hj hij
    rw [hside i j (by rw [hl] at hi; exact hi) (by rw [hl] at hj; exact hj) hij _ _ (hR.at_ i hi) (hR.at_ j hj)]
    exact he
  rw [← C48_all eps s.verts hw p]
  have h3 : s.verts.length = 3 := by rw [hsv, hl]
  unfold Polygon.containsPoint
  simp only [Polygon.fromPoints, Polygon.cleared, h3, if_true, Polygon.pnpTriangle, htri, ite_self]
  rcases triangleClosure eps s.verts with e | _ | t <;> rfl

/-- **C53** `contains_point` of a star with equal radii answers by the winding rule at every point. -/
theorem C53_star_equal_exact (n : ℕ) (hn : 3 ≤ n) (r : ℝ) (c : Vec2 ℝ) (a : ℝ) (s : Polygon ℝ)
    (h : Polygon.star (n : ℤ) r r c a = .ok s) (eps : ℝ) (pt : PyPoint ℝ) :
    (s.containsPoint eps pt).1 = .ok (winding s.verts pt.toVec != 0) := by
  have i1 := C53_star_equal n hn r c a s h eps pt
  have i2 := C53_star_outer n hn r r c a s h eps pt
  obtain ⟨s', hs, hsv, hcen, hmax, -, -, hyp, hbb, hmin⟩ := star_eq n (by omega) r r c a
  rw [h] at hs
  injection hs with hs
  subst hs
  have hR := star_radial n (by omega) r r c a
  have hl := starVerts_length (180 / (n : ℝ)) r r c n a
  have hn' : (3 : ℝ) ≤ n := by exact_mod_cast hn
  have hs0 : (0 : ℝ) < 180 / n := by positivity
  have hs1 : (180 : ℝ) / n < 90 := by rw [div_lt_iff₀ (by linarith)]; linarith
  rw [max_self] at hmax i2
  rw [if_pos Iff.rfl] at hcen
  rw [if_pos Iff.rfl, if_pos rfl, hsv, midRadius_sq hR (by omega) (r := r) (by simp) (by simp)] at hmin
  rw [if_pos rfl] at hyp
  have hhalf : cosDeg (90 / n) * cosDeg (90 / n) = (1 + cosDeg (180 / n)) / 2 := by
    have := cosDeg_half (180 / n)
    rwa [show (180 : ℝ) / n / 2 = 90 / n by ring] at this
  by_cases hd1 : pt.toVec.distanceTo c < |r| * cosDeg (90 / n)
  · obtain ⟨e1, e2⟩ := i1 hd1
    rw [e1]; simp [e2]
  by_cases hd2 : |r| < pt.toVec.distanceTo c
  · obtain ⟨e1, e2⟩ := i2 hd2
    rw [e1, e2]; rfl
  rw [not_lt] at hd1 hd2
  have hcc : 0 ≤ cosDeg (90 / n) := by
    refine (cosDeg_pos ?_ ?_).le
    · have : (0 : ℝ) < 90 / n := by positivity
      linarith
    · rw [div_lt_iff₀ (by linarith)]; linarith
  have hne : s.verts ≠ [] := by rw [ne_eq, ← List.length_eq_zero_iff, hsv, hl]; omega
  obtain ⟨g1, g2⟩ := hR.convexAll (r := r) (fun _ _ => by simp) hs0 (by linarith) (by omega)
  rw [← hsv] at g1 g2
  obtain ⟨b, hb, -, hb2⟩ := ymono_winding hne g1 pt.toVec
  rw [← hb2 (g2 hs1), ← hb]
  refine (contains_between (by rw [hsv, hl]; omega) hcen pt ?_ ?_).1 _ hyp
  · rintro - r' hr'
    rw [hmin] at hr'
    simp only [Option.some.injEq] at hr'
    rw [← hr', ← hhalf, ← d2_dist, ← abs_mul_abs_self r]
    nlinarith [mul_nonneg (abs_nonneg r) hcc]
  · rintro - r' hr'
    rw [hmax] at hr'
    simp only [Option.some.injEq] at hr'
    rw [← hr', ← d2_dist]
    nlinarith [dist_nonneg' pt.toVec c]

/-- **C53** `contains_point` of a star with different radii of one sign answers by the winding rule at every point.
(Partial: with three or more peaks the smaller radius is at most `cos(180°/n)` times the larger one, `C53_star_violated`;
stars with two peaks need no condition.) -/
theorem C53_star_exact_partial (n : ℕ) (hn : 2 ≤ n) (r1 r2 : ℝ) (c : Vec2 ℝ) (a : ℝ) (s : Polygon ℝ)
    (h : Polygon.star (n : ℤ) r1 r2 c a = .ok s) (hr : 0 < r1 * r2) (hne : r1 ≠ r2)
    (hsharp : n = 2 ∨ min |r1| |r2| ≤ max |r1| |r2| * cosDeg (180 / n)) (eps : ℝ) (pt : PyPoint ℝ) :
    (s.containsPoint eps pt).1 = .ok (winding s.verts pt.toVec != 0) := by
  obtain ⟨s', hs, hsv, hcen, hmax, -, -, hyp, hbb, hmin⟩ := star_eq n (by omega) r1 r2 c a
  rw [h] at hs
  injection hs with hs
  subst hs
  have hl := starVerts_length (180 / (n : ℝ)) r1 r2 c n a
  have hiff : 0 < r1 ↔ 0 < r2 := by
    rcases mul_pos_iff.mp hr with h | h
    · exact ⟨fun _ => h.2, fun _ => h.1⟩
    · exact ⟨fun h' => absurd h' (not_lt.mpr h.1.le), fun h' => absurd h' (not_lt.mpr h.2.le)⟩
  rw [if_pos hiff] at hcen
  rw [if_neg hne] at hyp
  by_cases hn2 : n = 2
  · refine (contains_between (by rw [hsv, hl]; omega) hcen pt ?_ ?_).2 hyp hbb
    · intro hx; rw [hsv, hl] at hx; omega
    · intro hx; rw [hsv, hl] at hx; omega
  have hn3 : 3 ≤ n := by omega
  by_cases hd1 : pt.toVec.distanceTo c < min |r1| |r2|
  · obtain ⟨e1, e2⟩ := C53_star_inner_partial n hn3 r1 r2 c a s h hr hne (hsharp.resolve_left hn2) eps pt hd1
    rw [e1]; simp [e2]
  by_cases hd2 : max |r1| |r2| < pt.toVec.distanceTo c
  · obtain ⟨e1, e2⟩ := C53_star_outer n hn3 r1 r2 c a s h eps pt hd2
    rw [e1, e2]; rfl
  rw [not_lt] at hd1 hd2
  have hm0 : 0 ≤ min |r1| |r2| := le_min (abs_nonneg _) (abs_nonneg _)
  refine (contains_between (by rw [hsv, hl]; omega) hcen pt ?_ ?_).2 hyp hbb
  · rintro - r' hr'
    rw [hmin] at hr'
    split at hr'
    · simp only [hne, if_false, Option.some.injEq] at hr'
      rw [← hr', ← d2_dist]
      nlinarith
    · cases hr'
  · rintro - r' hr'
    rw [hmax] at hr'
    simp only [Option.some.injEq] at hr'
    rw [← hr', ← d2_dist]
    nlinarith [dist_nonneg' pt.toVec c]

/-- The conditions are met: a pentagon, a triangle, a hexagonal star, a sharp star with three peaks. -/
example : (∃ s, Polygon.regular 5 (2 : ℝ) ⟨1, 1⟩ 10 = .ok s) ∧ (∃ s, Polygon.star 3 (3 : ℝ) 3 ⟨0, 0⟩ 0 = .ok s) ∧
    (1 / 100000 : ℝ) * (1 / 100000) ≤ 3 * (2 * 2) ∧
    (∃ s, Polygon.star 3 (4 : ℝ) 1 ⟨0, 0⟩ 0 = .ok s) ∧ (0 : ℝ) < 4 * 1 ∧
    min |(4 : ℝ)| |1| ≤ max |(4 : ℝ)| |1| * cosDeg (180 / (3 : ℕ)) := by
  refine ⟨?_, ?_, by norm_num, ?_, by norm_num, ?_⟩
  · obtain ⟨s, hs, -⟩ := C59_regular 5 (by norm_num) 2 ⟨1, 1⟩ 10
    exact ⟨s, hs⟩
  · obtain ⟨s, hs, -⟩ := C59_star 3 (by norm_num) 3 3 ⟨0, 0⟩ 0
    exact ⟨s, hs⟩
  · obtain ⟨s, hs, -⟩ := C59_star 3 (by norm_num) 4 1 ⟨0, 0⟩ 0
    exact ⟨s, hs⟩
  · rw [show (180 : ℝ) / (3 : ℕ) = 60 by norm_num, cosDeg_60, abs_of_pos (by norm_num), abs_one, min_eq_right (by norm_num),
      max_eq_left (by norm_num)]
    norm_num

end Planar
