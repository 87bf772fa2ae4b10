import Verif.Props.Box
import Verif.Props.Region
import Verif.Props.Equivariance
import Verif.Props.PolyState
/- Property C27, continued: which points the image of a box contains, and what happens with transforms that are only
nearly rectilinear. -/
set_option linter.unusedSectionVars false
namespace Planar
open Spec
open Polygon
variable {K : Type} [Field K] [LinearOrder K] [IsStrictOrderedRing K]

/-- **C27** the image of a box under a transform that is not rectilinear (a polygon) contains the images of all the points
inside the box, and no image of a point outside the (closed) box; given as a vector or as a tuple. -/
theorem C27_polygon_contains (eps : K) (b : Box K) (T : Affine K) (hT : T.isRectilinear eps = false)
    (hd : T.determinant ≠ 0) :
    ∃ s, b.mulT eps T = .ok (.poly s) ∧ ∀ (p : Vec2 K) (q : PyPoint K), q.toVec = T.apply p →
      (b.Interior p → (s.containsPoint eps q).1 = .ok true) ∧
      (b.min.x ≤ b.max.x → b.min.y ≤ b.max.y → ¬ b.Encloses p → (s.containsPoint eps q).1 = .ok false) := by
  refine ⟨_, C27_polygon eps b T hT, ?_⟩
  set vs := [T.apply b.min, T.apply ⟨b.min.x, b.max.y⟩, T.apply b.max, T.apply ⟨b.max.x, b.min.y⟩] with hvs
  intro p q hq
  constructor
  · rintro ⟨h1, h2, h3, h4⟩
    have hn : Polygon.new vs = .ok (Polygon.fromPoints vs) := C44_fresh_new eps vs (by simp [hvs])
    refine C61_interior eps vs _ hn (by simp [hvs]) q ?_
    rw [hq]
    have he : ∀ e ∈ edges vs, ∃ k < 0, side e.1 e.2 (T.apply p) = T.determinant * k := by
      intro e he
      simp only [hvs, edges, edgesFrom, List.getLast?_cons_cons, List.getLast?_singleton, List.mem_cons, List.not_mem_nil,
        or_false] at he
      have hw : 0 < b.max.x - b.min.x := by linarith
      have hh : 0 < b.max.y - b.min.y := by linarith
      rcases he with rfl | rfl | rfl | rfl <;> simp only [side_apply] <;> refine ⟨_, ?_, rfl⟩ <;> simp only [side]
      · nlinarith [mul_pos hw (sub_pos.2 h3)]
      · nlinarith [mul_pos hh (sub_pos.2 h1)]
      · nlinarith [mul_pos hw (sub_pos.2 h4)]
      · nlinarith [mul_pos hh (sub_pos.2 h2)]
    rcases lt_or_gt_of_ne hd with h | h
    · left; intro e hm; obtain ⟨k, hk, e'⟩ := he e hm; rw [e']; exact mul_pos_of_neg_of_neg h hk
    · right; intro e hm; obtain ⟨k, hk, e'⟩ := he e hm; rw [e']; exact mul_neg_of_pos_of_neg h hk
  · intro hx hy ho
    by_contra hc
    have hc' : ((Polygon.fromPoints vs).containsPoint eps q).1 = .ok true := by
      obtain ⟨s, hs, -, hw⟩ := C48_winding_new eps vs (by simp [hvs]) q
      rw [C44_fresh_new eps vs (by simp [hvs])] at hs
      injection hs with hs
      subst hs
      rw [hw] at hc ⊢
      by_cases h0 : winding vs q.toVec = 0
      · simp [h0] at hc
      · simp [h0]
    have key : ∀ u v c : K, (∀ r : Vec2 K, b.Encloses r → u * r.x + v * r.y ≤ c) → u * p.x + v * p.y ≤ c := by
      intro u v c h
      have e : ∀ r : Vec2 K, ((u * T.e - v * T.b) / T.determinant) * (T.apply r).x +
          ((v * T.a - u * T.d) / T.determinant) * (T.apply r).y =
          u * r.x + v * r.y + ((u * T.e - v * T.b) * T.c + (v * T.a - u * T.d) * T.f) / T.determinant := by
        intro r
        rw [Affine.apply_x, Affine.apply_y]
        field_simp
        simp only [Affine.determinant]
        ring
      have := C49_halfplane eps vs (by simp [hvs]) q hc' ((u * T.e - v * T.b) / T.determinant)
        ((v * T.a - u * T.d) / T.determinant)
        (c + ((u * T.e - v * T.b) * T.c + (v * T.a - u * T.d) * T.f) / T.determinant) (by
          intro r hr
          simp only [hvs, List.mem_cons, List.not_mem_nil, or_false] at hr
          rcases hr with rfl | rfl | rfl | rfl <;> rw [e] <;> gcongr <;> apply h <;>
            exact ⟨by simp [hx], by simp [hx], by simp [hy], by simp [hy]⟩)
      rw [hq, e] at this
      linarith
    apply ho
    refine ⟨?_, ?_, ?_, ?_⟩
    · linarith [key (-1) 0 (-b.min.x) fun r hr => by linarith [hr.1]]
    · linarith [key 1 0 b.max.x fun r hr => by linarith [hr.2.1]]
    · linarith [key 0 (-1) (-b.min.y) fun r hr => by linarith [hr.2.2.1]]
    · linarith [key 0 1 b.max.y fun r hr => by linarith [hr.2.2.2]]

/-- **C27** transforms that the code takes as rectilinear although they are so only within EPSILON: the image box misses the
image of a point of the box by less than EPSILON times the larger side of the box. -/
theorem C27_near (eps : K) (b : Box K) (T : Affine K) (hb : b.min.x ≤ b.max.x ∧ b.min.y ≤ b.max.y)
    (hT : T.isRectilinear eps = true) :
    ∃ r, b.mulT eps T = .ok (.box r) ∧ r.Encloses (T.apply b.min) ∧ r.Encloses (T.apply b.max) ∧
      ∀ p, b.Encloses p → ∃ q, r.Encloses q ∧ |(T.apply p).x - q.x| ≤ eps * max b.width b.height ∧
        |(T.apply p).y - q.y| ≤ eps * max b.width b.height := by
  have hok := fromPoints_pair (T.apply b.min) (T.apply b.max)
  refine ⟨_, by simp only [Box.mulT, hT, if_true, hok]; rfl, ⟨by simp, by simp, by simp, by simp⟩,
    ⟨by simp, by simp, by simp, by simp⟩, ?_⟩
  rintro p ⟨h1, h2, h3, h4⟩
  obtain ⟨s, s0, s1, hs⟩ : ∃ s : K, 0 ≤ s ∧ s ≤ 1 ∧ p.x = b.min.x + s * (b.max.x - b.min.x) := by
    rcases hb.1.eq_or_lt with h | h
    · exact ⟨0, le_refl _, zero_le_one, by linarith⟩
    · have hw : 0 < b.max.x - b.min.x := by linarith
      refine ⟨(p.x - b.min.x) / (b.max.x - b.min.x), div_nonneg (by linarith) hw.le, (div_le_one hw).2 (by linarith), ?_⟩
      field_simp; ring
  obtain ⟨t, t0, t1, ht⟩ : ∃ t : K, 0 ≤ t ∧ t ≤ 1 ∧ p.y = b.min.y + t * (b.max.y - b.min.y) := by
    rcases hb.2.eq_or_lt with h | h
    · exact ⟨0, le_refl _, zero_le_one, by linarith⟩
    · have hw : 0 < b.max.y - b.min.y := by linarith
      refine ⟨(p.y - b.min.y) / (b.max.y - b.min.y), div_nonneg (by linarith) hw.le, (div_le_one hw).2 (by linarith), ?_⟩
      field_simp; ring
  have hbt : ∀ (k u v : K), 0 ≤ k → k ≤ 1 → min u v ≤ u + k * (v - u) ∧ u + k * (v - u) ≤ max u v := by
    intro k u v k0 k1
    rcases le_total u v with h | h
    · rw [min_eq_left h, max_eq_right h]; constructor <;> nlinarith
    · rw [min_eq_right h, max_eq_left h]; constructor <;> nlinarith
  have hw0 : 0 ≤ b.width := sub_nonneg.2 hb.1
  have hh0 : 0 ≤ b.height := sub_nonneg.2 hb.2
  have hsm : ∀ (k w m : K), |k| ≤ 1 → 0 ≤ w → w ≤ max b.width b.height → |m| < eps → |k * w * m| ≤ eps * max b.width b.height := by
    intro k w m hk hw hw' hm
    rw [abs_mul, abs_mul, abs_of_nonneg hw, mul_comm eps]
    have : |k| * w ≤ max b.width b.height := by nlinarith [abs_nonneg k]
    exact mul_le_mul this hm.le (abs_nonneg _) (hw.trans hw')
  have hst : |t - s| ≤ 1 := abs_le.2 ⟨by linarith, by linarith⟩
  have hts : |s - t| ≤ 1 := abs_le.2 ⟨by linarith, by linarith⟩
  have hT' : (|T.a| < eps ∧ |T.e| < eps) ∨ (|T.d| < eps ∧ |T.b| < eps) := by
    simpa [Affine.isRectilinear] using hT
  rcases hT' with ⟨ha, he⟩ | ⟨hd, hb'⟩
  · refine ⟨⟨(T.apply b.min).x + t * ((T.apply b.max).x - (T.apply b.min).x),
      (T.apply b.min).y + s * ((T.apply b.max).y - (T.apply b.min).y)⟩,
      ⟨(hbt t _ _ t0 t1).1, (hbt t _ _ t0 t1).2, (hbt s _ _ s0 s1).1, (hbt s _ _ s0 s1).2⟩, ?_, ?_⟩
    · refine le_trans (le_of_eq ?_) (hsm (s - t) b.width T.a hts hw0 (le_max_left _ _) ha)
      congr 1
      simp only [Affine.apply_x, hs, ht, Box.width]
      ring
    · refine le_trans (le_of_eq ?_) (hsm (t - s) b.height T.e hst hh0 (le_max_right _ _) he)
      congr 1
      simp only [Affine.apply_y, hs, ht, Box.height]
      ring
  · refine ⟨⟨(T.apply b.min).x + s * ((T.apply b.max).x - (T.apply b.min).x),
      (T.apply b.min).y + t * ((T.apply b.max).y - (T.apply b.min).y)⟩,
      ⟨(hbt s _ _ s0 s1).1, (hbt s _ _ s0 s1).2, (hbt t _ _ t0 t1).1, (hbt t _ _ t0 t1).2⟩, ?_, ?_⟩
    · refine le_trans (le_of_eq ?_) (hsm (t - s) b.height T.d hst hh0 (le_max_right _ _) hd)
      congr 1
      simp only [Affine.apply_x, hs, ht, Box.height]
      ring
    · refine le_trans (le_of_eq ?_) (hsm (s - t) b.width T.b hts hw0 (le_max_left _ _) hb')
      congr 1
      simp only [Affine.apply_y, hs, ht, Box.width]
      ring

/-- **C27** the image box under an exactly rectilinear invertible transform contains the images of the points inside the box
and no image of a point outside the closed box. (On the sides the two may differ: which sides belong to a box does not turn
with the transform.) -/
theorem C27_box_contains (eps : K) (heps : 0 < eps) (b : Box K) (T : Affine K)
    (hb : b.min.x ≤ b.max.x ∧ b.min.y ≤ b.max.y)
    (hT : (T.a = 0 ∧ T.e = 0) ∨ (T.b = 0 ∧ T.d = 0)) (hd : T.determinant ≠ 0) :
    ∃ r, b.mulT eps T = .ok (.box r) ∧ ∀ p, (b.Interior p → r.containsPoint (T.apply p) = true) ∧
      (¬ b.Encloses p → r.containsPoint (T.apply p) = false) := by
  obtain ⟨r, hr, -, -, hback⟩ := C27_rectilinear eps heps b T hb hT
  refine ⟨r, hr, fun p => ⟨?_, ?_⟩⟩
  · rintro ⟨h1, h2, h3, h4⟩
    apply (C23_inside r _).2.2
    have hrect : T.isRectilinear eps = true := by
      rcases hT with ⟨h1, h2⟩ | ⟨h1, h2⟩ <;> simp [Affine.isRectilinear, h1, h2, heps]
    have hok := fromPoints_pair (T.apply b.min) (T.apply b.max)
    simp only [Box.mulT, hrect, if_true, hok, bind, Except.bind, pure, Except.pure] at hr
    injection hr with hr
    injection hr with hr
    subst hr
    have hmono : ∀ u v w k c : K, u < v → v < w → k ≠ 0 → min (u * k + c) (w * k + c) < v * k + c ∧
        v * k + c < max (u * k + c) (w * k + c) := by
      intro u v w k c huv hvw hk
      rcases lt_or_gt_of_ne hk with h | h
      · exact ⟨min_lt_of_right_lt (by nlinarith), lt_max_of_lt_left (by nlinarith)⟩
      · exact ⟨min_lt_of_left_lt (by nlinarith), lt_max_of_lt_right (by nlinarith)⟩
    simp only [Box.Interior, Affine.apply_x, Affine.apply_y]
    rcases hT with ⟨e1, e2⟩ | ⟨e1, e2⟩
    · have hb0 : T.b ≠ 0 := fun h => hd (by simp [Affine.determinant, e1, h])
      have hd0 : T.d ≠ 0 := fun h => hd (by simp [Affine.determinant, e1, h])
      simp only [e1, e2, mul_zero, zero_add, add_zero]
      exact ⟨(hmono _ _ _ _ _ h3 h4 hd0).1, (hmono _ _ _ _ _ h3 h4 hd0).2, (hmono _ _ _ _ _ h1 h2 hb0).1,
        (hmono _ _ _ _ _ h1 h2 hb0).2⟩
    · have ha0 : T.a ≠ 0 := fun h => hd (by simp [Affine.determinant, e1, h])
      have he0 : T.e ≠ 0 := fun h => hd (by simp [Affine.determinant, e1, h])
      simp only [e1, e2, mul_zero, zero_add, add_zero]
      exact ⟨(hmono _ _ _ _ _ h1 h2 ha0).1, (hmono _ _ _ _ _ h1 h2 ha0).2, (hmono _ _ _ _ _ h3 h4 he0).1,
        (hmono _ _ _ _ _ h3 h4 he0).2⟩
  · intro ho
    by_contra hc
    have hc := (C23_inside r _).2.1 (by simpa using hc)
    obtain ⟨p', hp', e⟩ := hback hd _ hc
    have : p' = p := by
      have ex := congrArg Vec2.x e
      have ey := congrArg Vec2.y e
      rw [Affine.apply_x, Affine.apply_x] at ex
      rw [Affine.apply_y, Affine.apply_y] at ey
      have hx : T.determinant * (p'.x - p.x) = 0 := by simp only [Affine.determinant]; linear_combination T.e * ex - T.d * ey
      have hy : T.determinant * (p'.y - p.y) = 0 := by simp only [Affine.determinant]; linear_combination T.a * ey - T.b * ex
      have hx := (mul_eq_zero.1 hx).resolve_left hd
      have hy := (mul_eq_zero.1 hy).resolve_left hd
      exact Vec2.ext (sub_eq_zero.1 hx) (sub_eq_zero.1 hy)
    exact ho (this ▸ hp')

/-- A box and a shear, a nearly rectilinear transform and a quarter turn. -/
example : (⟨1, 1, 0, 0, 1, 3⟩ : Affine ℚ).isRectilinear (1/100000) = false ∧ (⟨1, 1, 0, 0, 1, 3⟩ : Affine ℚ).determinant ≠ 0 ∧
    (⟨1, 1/1000000, 0, 0, 1, 3⟩ : Affine ℚ).isRectilinear (1/100000) = true ∧ (⟨0, 1, 0, -1, 0, 0⟩ : Affine ℚ).determinant ≠ 0 ∧
    (⟨⟨0, 0⟩, ⟨2, 1⟩⟩ : Box ℚ).Interior ⟨1, 1/2⟩ ∧ ¬ (⟨⟨0, 0⟩, ⟨2, 1⟩⟩ : Box ℚ).Encloses ⟨3, 1/2⟩ := by
  refine ⟨by decide +kernel, by decide +kernel, by decide +kernel, by decide +kernel, ?_, ?_⟩
  · simp only [Box.Interior]; norm_num
  · simp only [Box.Encloses]; norm_num

end Planar
