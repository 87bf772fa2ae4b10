import Verif.Props.BoxTransform
import Verif.Props.Tangents
import Verif.Props.Centroid
import Verif.Lemmas.GridPoly
/- C76: the bounding box, the centroid and the tangent vertices of a polygon move with it under transforms. -/
set_option linter.unusedSectionVars false
namespace Planar
open Spec Polygon
variable {K : Type} [Field K] [LinearOrder K] [IsStrictOrderedRing K]

theorem bbox_of_new {eps : K} {vs : List (Vec2 K)} {s : Polygon K} (h : Polygon.new vs = .ok s) (ops : List (PolyOp K)) :
    ∃ b, (s.after eps ops).boundingBox.1 = .ok b ∧ b.Tight (s.after eps ops).verts := by
  have h3 : 3 ≤ vs.length := by
    by_contra hc
    rw [(C43_new vs none none).1 (by omega)] at h
    cases h
  have hl := after_length (eps := eps) h ops
  rw [C44_fresh_new eps vs h3] at h
  injection h with h
  subst h
  obtain ⟨i1, -⟩ := inv_after (inv_fromPoints eps vs) ops
  obtain ⟨b, hb, ht⟩ := fromPoints_tight (ps := ((Polygon.fromPoints vs).after eps ops).verts) (by
    intro h; rw [h] at hl; simp at hl)
  refine ⟨b, ?_, ht⟩
  rw [(inv_boundingBox i1).1, hb]

theorem bbox_new {vs : List (Vec2 K)} {s : Polygon K} (h : Polygon.new vs = .ok s) :
    ∃ b, s.boundingBox.1 = .ok b ∧ b.Tight s.verts := bbox_of_new (eps := 0) h []

/-- **C76** after every history of reads and edits: the bounding box of a polygon transformed (in place or not) by an exactly
rectilinear transform is the transformed bounding box. -/
theorem C76_box (eps : K) (heps : 0 < eps) (vs : List (Vec2 K)) (s0 : Polygon K) (h : Polygon.new vs = .ok s0)
    (ops : List (PolyOp K)) (T : Affine K) (hT : (T.a = 0 ∧ T.e = 0) ∨ (T.b = 0 ∧ T.d = 0)) :
    let s := s0.after eps ops
    ∃ b r, s.boundingBox.1 = .ok b ∧ b.mulT eps T = .ok (.box r) ∧ (s.transformed T).boundingBox.1 = .ok r ∧
      (s.imul T).boundingBox.1 = .ok r := by
  intro s
  obtain ⟨h1, h2, h3⟩ := transformed_new (eps := eps) h ops T
  obtain ⟨b, hb, ht⟩ := bbox_of_new (eps := eps) h ops
  have hr := fromPoints_pair (T.apply b.min) (T.apply b.max)
  have hrect : T.isRectilinear eps = true := by
    rcases hT with ⟨h1, h2⟩ | ⟨h1, h2⟩ <;> simp [Affine.isRectilinear, h1, h2, heps]
  refine ⟨b, _, hb, by simp only [Box.mulT, hrect, if_true, hr]; rfl, ?_⟩
  rw [h2, and_self_iff]
  obtain ⟨r, hr1, hr2⟩ := bbox_new h1
  rw [hr1]
  congr 1
  refine hr2.unique (ps' := (s.transformed T).verts) ?_ fun _ => Iff.rfl
  rw [h3]
  obtain ⟨he, ⟨p1, m1, e1⟩, ⟨p2, m2, e2⟩, ⟨p3, m3, e3⟩, ⟨p4, m4, e4⟩⟩ := ht
  have hmono : ∀ u v w k : K, u ≤ v → v ≤ w → min (u * k) (w * k) ≤ v * k ∧ v * k ≤ max (u * k) (w * k) := by
    intro u v w k huv hvw
    rcases le_total 0 k with h | h
    · exact ⟨(min_le_left _ _).trans (mul_le_mul_of_nonneg_right huv h),
        (mul_le_mul_of_nonneg_right hvw h).trans (le_max_right _ _)⟩
    · exact ⟨(min_le_right _ _).trans (mul_le_mul_of_nonpos_right hvw h),
        (mul_le_mul_of_nonpos_right huv h).trans (le_max_left _ _)⟩
  refine ⟨?_, ?_, ?_, ?_, ?_⟩
  · intro q hq
    obtain ⟨p, hp, rfl⟩ := List.mem_map.mp hq
    obtain ⟨g1, g2, g3, g4⟩ := he p hp
    simp only [Box.Encloses, Affine.apply_x, Affine.apply_y]
    rcases hT with ⟨e1, e2⟩ | ⟨e1, e2⟩ <;>
      simp only [e1, e2, mul_zero, zero_add, add_zero, min_add_add_right, max_add_add_right, add_le_add_iff_right]
    · exact ⟨(hmono _ _ _ _ g3 g4).1, (hmono _ _ _ _ g3 g4).2, (hmono _ _ _ _ g1 g2).1, (hmono _ _ _ _ g1 g2).2⟩
    · exact ⟨(hmono _ _ _ _ g1 g2).1, (hmono _ _ _ _ g1 g2).2, (hmono _ _ _ _ g3 g4).1, (hmono _ _ _ _ g3 g4).2⟩
  all_goals
    simp only [List.mem_map, exists_exists_and_eq_and, Affine.apply_x, Affine.apply_y]
    rcases hT with ⟨z1, z2⟩ | ⟨z1, z2⟩ <;> simp only [z1, z2, mul_zero, zero_add, add_zero]
  · rcases min_choice (b.min.y * T.d + T.c) (b.max.y * T.d + T.c) with g | g <;> rw [g]
    exacts [⟨p3, m3, by rw [e3]⟩, ⟨p4, m4, by rw [e4]⟩]
  · rcases min_choice (b.min.x * T.a + T.c) (b.max.x * T.a + T.c) with g | g <;> rw [g]
    exacts [⟨p1, m1, by rw [e1]⟩, ⟨p2, m2, by rw [e2]⟩]
  · rcases max_choice (b.min.y * T.d + T.c) (b.max.y * T.d + T.c) with g | g <;> rw [g]
    exacts [⟨p3, m3, by rw [e3]⟩, ⟨p4, m4, by rw [e4]⟩]
  · rcases max_choice (b.min.x * T.a + T.c) (b.max.x * T.a + T.c) with g | g <;> rw [g]
    exacts [⟨p1, m1, by rw [e1]⟩, ⟨p2, m2, by rw [e2]⟩]
  · rcases min_choice (b.min.x * T.b + T.f) (b.max.x * T.b + T.f) with g | g <;> rw [g]
    exacts [⟨p1, m1, by rw [e1]⟩, ⟨p2, m2, by rw [e2]⟩]
  · rcases min_choice (b.min.y * T.e + T.f) (b.max.y * T.e + T.f) with g | g <;> rw [g]
    exacts [⟨p3, m3, by rw [e3]⟩, ⟨p4, m4, by rw [e4]⟩]
  · rcases max_choice (b.min.x * T.b + T.f) (b.max.x * T.b + T.f) with g | g <;> rw [g]
    exacts [⟨p1, m1, by rw [e1]⟩, ⟨p2, m2, by rw [e2]⟩]
  · rcases max_choice (b.min.y * T.e + T.f) (b.max.y * T.e + T.f) with g | g <;> rw [g]
    exacts [⟨p3, m3, by rw [e3]⟩, ⟨p4, m4, by rw [e4]⟩]

/-- **C76** for every other transform: the bounding box of the transformed polygon (in place or not) is inside the bounding
box of the transformed bounding box (a polygon). -/
theorem C76_box_general (eps : K) (vs : List (Vec2 K)) (s0 : Polygon K) (h : Polygon.new vs = .ok s0)
    (ops : List (PolyOp K)) (T : Affine K) (hT : T.isRectilinear eps = false) :
    let s := s0.after eps ops
    ∃ b q r t, s.boundingBox.1 = .ok b ∧ b.mulT eps T = .ok (.poly q) ∧ q.boundingBox.1 = .ok r ∧
      (s.transformed T).boundingBox.1 = .ok t ∧ (s.imul T).boundingBox.1 = .ok t ∧ r.Encloses t.min ∧ r.Encloses t.max := by
  intro s
  obtain ⟨h1, h2, h3⟩ := transformed_new (eps := eps) h ops T
  obtain ⟨b, hb, ht⟩ := bbox_of_new (eps := eps) h ops
  obtain ⟨t, ht1, ht2⟩ := bbox_new h1
  set ws := [T.apply b.min, T.apply ⟨b.min.x, b.max.y⟩, T.apply b.max, T.apply ⟨b.max.x, b.min.y⟩] with hws
  have hn : Polygon.new ws = .ok (Polygon.fromPoints ws) := C44_fresh_new eps ws (by simp [hws])
  obtain ⟨r, hr1, hr2⟩ := bbox_new hn
  refine ⟨b, _, r, t, hb, C27_polygon eps b T hT, hr1, ht1, by rw [h2]; exact ht1, ?_⟩
  refine ht2.least r ?_
  rw [h3]
  intro q hq
  obtain ⟨p, hp, rfl⟩ := List.mem_map.mp hq
  obtain ⟨g1, g2, g3, g4⟩ := ht.1 p hp
  have c1 := hr2.1 (T.apply b.min) (by simp [Polygon.fromPoints, Polygon.cleared, hws])
  have c2 := hr2.1 (T.apply ⟨b.min.x, b.max.y⟩) (by simp [Polygon.fromPoints, Polygon.cleared, hws])
  have c3 := hr2.1 (T.apply b.max) (by simp [Polygon.fromPoints, Polygon.cleared, hws])
  have c4 := hr2.1 (T.apply ⟨b.max.x, b.min.y⟩) (by simp [Polygon.fromPoints, Polygon.cleared, hws])
  have key : ∀ u v c m : K, u * b.min.x + v * b.min.y + c ≤ m → u * b.min.x + v * b.max.y + c ≤ m →
      u * b.max.x + v * b.max.y + c ≤ m → u * b.max.x + v * b.min.y + c ≤ m → u * p.x + v * p.y + c ≤ m := by
    intro u v c m k1 k2 k3 k4
    rcases le_total 0 u with hu | hu <;> rcases le_total 0 v with hv | hv
    · nlinarith [mul_le_mul_of_nonneg_left g2 hu, mul_le_mul_of_nonneg_left g4 hv]
    · nlinarith [mul_le_mul_of_nonneg_left g2 hu, mul_le_mul_of_nonpos_left g3 hv]
    · nlinarith [mul_le_mul_of_nonpos_left g1 hu, mul_le_mul_of_nonneg_left g4 hv]
    · nlinarith [mul_le_mul_of_nonpos_left g1 hu, mul_le_mul_of_nonpos_left g3 hv]
  simp only [Box.Encloses, Affine.apply_x, Affine.apply_y] at c1 c2 c3 c4 ⊢
  refine ⟨?_, ?_, ?_, ?_⟩
  · linarith [key (-T.a) (-T.d) (-T.c) (-r.min.x) (by linarith) (by linarith) (by linarith) (by linarith)]
  · linarith [key T.a T.d T.c r.max.x (by linarith) (by linarith) (by linarith) (by linarith)]
  · linarith [key (-T.b) (-T.e) (-T.f) (-r.min.y) (by linarith) (by linarith) (by linarith) (by linarith)]
  · linarith [key T.b T.e T.f r.max.y (by linarith) (by linarith) (by linarith) (by linarith)]

/-! ### tangents -/

section Tangents
variable {T : Affine K} (hd : 0 < T.determinant)
include hd

theorem pos_le (k : K) : T.determinant * k ≤ 0 ↔ k ≤ 0 := by
  constructor
  · intro h; by_contra hc; push Not at hc; exact absurd h (not_le.mpr (mul_pos hd hc))
  · exact fun h => mul_nonpos_of_nonneg_of_nonpos hd.le h

theorem pos_gt (k : K) : 0 < T.determinant * k ↔ 0 < k := by rw [← not_le, pos_le hd, not_le]

theorem turn_apply (p u v : Vec2 K) : turn (T.apply p) (T.apply u) (T.apply v) = T.determinant * turn p u v := by
  simp only [turn, Affine.apply_x, Affine.apply_y, Affine.determinant]; ring

theorem tangentsLoop_apply (p : Vec2 K) (rest : List (Vec2 K)) (v0 : Vec2 K) (pt : K) (l r : Vec2 K) :
    tangentsLoop (T.apply p) (rest.map T.apply) (T.apply v0) (T.determinant * pt) (T.apply l) (T.apply r) =
      (T.apply (tangentsLoop p rest v0 pt l r).1, T.apply (tangentsLoop p rest v0 pt l r).2) := by
  induction rest generalizing v0 pt l r with
  | nil => rfl
  | cons v1 rest ih =>
    simp only [List.map_cons, tangentsLoop, turn_apply hd, gt_iff_lt, ge_iff_le, pos_le hd, pos_gt hd, Vec2.copy_eq]
    have e1 : ∀ u w : Vec2 K, ((T.apply u).x - (T.apply p).x) * ((T.apply w).y - (T.apply p).y) -
        ((T.apply w).x - (T.apply p).x) * ((T.apply u).y - (T.apply p).y) =
        T.determinant * ((u.x - p.x) * (w.y - p.y) - (w.x - p.x) * (u.y - p.y)) := by
      intro u w; simp only [Affine.apply_x, Affine.apply_y, Affine.determinant]; ring
    have nn : ∀ k : K, 0 ≤ T.determinant * k ↔ 0 ≤ k := fun k => mul_nonneg_iff_of_pos_left hd
    simp only [e1, pos_le hd, nn]
    split_ifs <;> exact ih _ _ _ _

theorem ptTangents_apply (vs : List (Vec2 K)) (p : Vec2 K) :
    ptTangents (vs.map T.apply) (T.apply p) = (ptTangents vs p).map fun lr => (T.apply lr.1, T.apply lr.2) := by
  unfold ptTangents
  simp only [pyGet_map, bind, Except.bind, pure, Except.pure]
  cases pyGet vs 0 <;> cases pyGet vs (-2) <;> cases pyGet vs (-1) <;> try rfl
  simp only [Except.map, turn_apply hd, tangentsLoop_apply hd]

theorem ptAbove_apply (p u v : Vec2 K) : ptAbove (T.apply p) (T.apply u) (T.apply v) = ptAbove p u v := by
  have e := turn_apply hd p u v
  have h : ∀ a b c : Vec2 K, ptAbove a b c = decide (0 < (b.x - a.x)*(c.y - a.y) - (c.x - a.x)*(b.y - a.y)) := fun _ _ _ => rfl
  rw [h, h, decide_eq_decide, ← pos_gt hd ((u.x - p.x)*(v.y - p.y) - (v.x - p.x)*(u.y - p.y))]
  rw [show ∀ x y : K, x = y → (0 < x ↔ 0 < y) from fun x y h => by rw [h]]
  simp only [Affine.apply_x, Affine.apply_y, Affine.determinant]; ring

theorem ptBelow_apply (p u v : Vec2 K) : ptBelow (T.apply p) (T.apply u) (T.apply v) = ptBelow p u v := by
  have h : ∀ a b c : Vec2 K, ptBelow a b c = ptAbove a c b := by
    intro a b c
    simp only [ptBelow, ptAbove, decide_eq_decide, gt_iff_lt]
    constructor <;> intro h <;> linarith
  rw [h, h, ptAbove_apply hd]

theorem leftTanLoop_apply (vs : List (Vec2 K)) (p : Vec2 K) (n : Nat) (a b : Int) :
    leftTanLoop (vs.map T.apply) (T.apply p) n a b = leftTanLoop vs p n a b := by
  induction n generalizing a b with
  | zero => rfl
  | succ n ih =>
    simp only [leftTanLoop, pyGet_map, bind, Except.bind, pure, Except.pure, ih]
    cases pyGet vs ((a + b) / 2 + 1) <;> cases pyGet vs ((a + b) / 2) <;> cases pyGet vs ((a + b) / 2 - 1) <;>
      cases pyGet vs (a + 1) <;> cases pyGet vs a <;> simp only [Except.map, ptAbove_apply hd, ptBelow_apply hd]

theorem rightTanLoop_apply (vs : List (Vec2 K)) (p : Vec2 K) (n : Nat) (a b : Int) :
    rightTanLoop (vs.map T.apply) (T.apply p) n a b = rightTanLoop vs p n a b := by
  induction n generalizing a b with
  | zero => rfl
  | succ n ih =>
    simp only [rightTanLoop, pyGet_map, bind, Except.bind, pure, Except.pure, ih]
    cases pyGet vs ((a + b) / 2 + 1) <;> cases pyGet vs ((a + b) / 2) <;> cases pyGet vs ((a + b) / 2 - 1) <;>
      cases pyGet vs (a + 1) <;> cases pyGet vs a <;> simp only [Except.map, ptAbove_apply hd, ptBelow_apply hd]

theorem leftTan_apply (vs : List (Vec2 K)) (p : Vec2 K) : leftTan (vs.map T.apply) (T.apply p) = leftTan vs p := by
  simp only [leftTan, pyGet_map, bind, Except.bind, pure, Except.pure, leftTanLoop_apply hd, List.length_map]
  cases pyGet vs 0 <;> cases pyGet vs (-1) <;> cases pyGet vs (-2) <;>
    simp only [Except.map, ptAbove_apply hd, ptBelow_apply hd]

theorem rightTan_apply (vs : List (Vec2 K)) (p : Vec2 K) : rightTan (vs.map T.apply) (T.apply p) = rightTan vs p := by
  simp only [rightTan, pyGet_map, bind, Except.bind, pure, Except.pure, rightTanLoop_apply hd, List.length_map]
  cases pyGet vs 0 <;> cases pyGet vs (-1) <;> cases pyGet vs (-2) <;>
    simp only [Except.map, ptAbove_apply hd, ptBelow_apply hd]

end Tangents

/-- The polygons for which the binary search is used. -/
def Fast (vs : List (Vec2 K)) : Prop := cv vs = true ∧ dg vs = false ∧ dv vs = false

theorem ends_distinct {vs : List (Vec2 K)} (h2 : 2 ≤ vs.length) (h : ∀ e ∈ edges vs, e.1 ≠ e.2) : nth vs (-1) ≠ nth vs (-2) := by
  obtain ⟨e, he, hev⟩ := edges_last h2
  have hee := h e (List.mem_of_getLast? he)
  rw [← truthy_iff] at hee
  intro hc
  rw [hev, hc] at hee
  simp [Vec2.truthy] at hee

theorem solid_all {vs : List (Vec2 K)} (h : ∀ e ∈ edges vs, e.1 ≠ e.2) : solid vs = edges vs :=
  List.filter_eq_self.mpr fun e he => (truthy_iff e).mpr (h e he)

theorem fast_apply {T : Affine K} (hd : T.determinant ≠ 0) {vs : List (Vec2 K)} (h2 : 2 ≤ vs.length) (h : Fast vs) :
    Fast (vs.map T.apply) := by
  obtain ⟨h1, hg, hv⟩ := h
  have hdi := distinct_of_dv hv
  have hdi' : ∀ e ∈ edges (vs.map T.apply), e.1 ≠ e.2 := by
    intro e he
    rw [edges_map] at he
    obtain ⟨f, hf, rfl⟩ := List.mem_map.mp he
    exact fun hc => hdi f hf (apply_inj hd hc)
  have hc := convex_of_cv h2 (ends_distinct h2 hdi) h1
  have hcv : cv (vs.map T.apply) = true := cv_of_convex (by simpa using h2) ((convex_apply hd vs).mpr hc)
  have conv : ∀ ws : List (Vec2 K), cv ws = true → (classifyRun ws).convex = true := by
    intro ws h
    simp only [cv] at h
    split at h
    · exact h
    · cases h
  have k1 := conv _ h1
  have k2 := conv _ hcv
  have hn : (classifyRun (vs.map T.apply)).count = (vs.map T.apply).length := by
    simp only [classifyRun, solid_map] at k2 ⊢
    rw [loop_count _ _ _ _ _ _ k2, solid_all hdi', List.length_map, edges_length]; omega
  refine ⟨hcv, ?_, by simp [dv, hn]⟩
  simp only [dg, Bool.or_eq_false_iff, beq_eq_false_iff_ne, ne_eq] at hg ⊢
  refine ⟨by rw [hn]; simp; rintro rfl; simp at h2, ?_⟩
  intro hc
  apply hg.2
  simp only [classifyRun, solid_map] at k1 k2 hc ⊢
  rw [loop_angle _ _ _ _ _ _ k2] at hc
  rw [loop_angle _ _ _ _ _ _ k1]
  refine ⟨rfl, ?_⟩
  have lin : ∀ u v : Vec2 K, T.apply u - T.apply v = ⟨(u - v).x * T.a + (u - v).y * T.d, (u - v).x * T.b + (u - v).y * T.e⟩ := by
    intro u v
    apply Vec2.ext <;> simp only [Vec2.sub_x, Vec2.sub_y, Affine.apply_x, Affine.apply_y] <;> ring
  have hc2 := hc.2
  rw [solid_all hdi', edges_map] at hc2
  rw [solid_all hdi]
  have e1 : nth (vs.map T.apply) (-1) = T.apply (nth vs (-1)) := by
    have a1 : nth (vs.map T.apply) (-1) = (vs.map T.apply)[(vs.map T.apply).length - 1]'(by simp; omega) :=
      nth_neg (vs.map T.apply) 1 (by omega) (by simp; omega)
    have a2 : nth vs (-1) = vs[vs.length - 1] := nth_neg vs 1 (by omega) (by omega)
    rw [a1, a2]; simp
  have e2 : nth (vs.map T.apply) (-2) = T.apply (nth vs (-2)) := by
    have a1 : nth (vs.map T.apply) (-2) = (vs.map T.apply)[(vs.map T.apply).length - 2]'(by simp; omega) :=
      nth_neg (vs.map T.apply) 2 (by omega) (by simp; omega)
    have a2 : nth vs (-2) = vs[vs.length - 2] := nth_neg vs 2 (by omega) (by omega)
    rw [a1, a2]; simp
  rw [e1, e2, lin] at hc2
  set L : Vec2 K → Vec2 K := fun w => ⟨w.x * T.a + w.y * T.d, w.x * T.b + w.y * T.e⟩ with hL
  have e3 : ((edges vs).map fun e => (T.apply e.1, T.apply e.2)).map vec = ((edges vs).map vec).map L := by
    rw [List.map_map, List.map_map]
    refine List.map_congr_left fun e _ => ?_
    simp only [Function.comp, vec, lin, hL]
  rw [e3, show (⟨(nth vs (-1) - nth vs (-2)).x * T.a + (nth vs (-1) - nth vs (-2)).y * T.d,
    (nth vs (-1) - nth vs (-2)).x * T.b + (nth vs (-1) - nth vs (-2)).y * T.e⟩ : Vec2 K) = L (nth vs (-1) - nth vs (-2)) from rfl,
    ← List.map_cons, List.isChain_map] at hc2
  refine hc2.imp fun u v h => ?_
  have : (L u).cross (L v) = T.determinant * u.cross v := by
    simp only [hL, Vec2.cross, Affine.determinant]; ring
  rw [this] at h
  exact (mul_eq_zero.mp h).resolve_left hd

theorem fast_iff {T : Affine K} (hd : T.determinant ≠ 0) {vs : List (Vec2 K)} (h2 : 2 ≤ vs.length) :
    Fast (vs.map T.apply) ↔ Fast vs := by
  refine ⟨fun h => ?_, fast_apply hd h2⟩
  obtain ⟨U, hU, hinv⟩ := exists_inverse hd
  have := fast_apply hU (by simpa using h2) h
  rwa [map_inverse hinv] at this

open Classical in
theorem tangents_fast {eps : K} {s : Polygon K} (h : Inv eps s) (p : Vec2 K) :
    (s.tangentsToPoint p).1 = if 20 < s.verts.length ∧ Fast s.verts then (do
        let l ← leftTan s.verts p
        let lv ← pyGet s.verts l
        let r ← rightTan s.verts p
        let rv ← pyGet s.verts r
        return (lv, rv)) else ptTangents s.verts p := by
  obtain ⟨c1, -, c3, -, -, c6⟩ := inv_isConvex h
  unfold tangentsToPoint
  by_cases hlen : 20 < s.verts.length
  · have hf : (s.isConvex.1 && !(s.isConvex.2.dupeVerts.getD true)) = true ↔ Fast s.verts := by
      have h3 : 3 < s.verts.length := by omega
      rw [c1, c6]
      simp only [convexVal, h3, if_true, decide_true, Bool.true_and, Fast]
      cases cv s.verts <;> cases dg s.verts <;> cases dv s.verts <;> simp
    simp only [gt_iff_lt, hlen, if_true, true_and, c3]
    by_cases hF : Fast s.verts
    · simp only [hf.mpr hF, if_true, hF]
    · have : ¬ (s.isConvex.1 && !(s.isConvex.2.dupeVerts.getD true)) = true := fun hc => hF (hf.mp hc)
      simp only [this, hF, if_false, Bool.false_eq_true]
  · simp only [gt_iff_lt, hlen, if_false, false_and]

theorem new_after_inv {eps : K} {vs : List (Vec2 K)} {s : Polygon K} (h : Polygon.new vs = .ok s) (ops : List (PolyOp K)) :
    Inv eps (s.after eps ops) := by
  have h3 : 3 ≤ vs.length := by
    by_contra hc
    rw [(C43_new vs none none).1 (by omega)] at h
    cases h
  rw [C44_fresh_new eps vs h3] at h
  injection h with h
  subst h
  exact (inv_after (inv_fromPoints eps vs) ops).1

/-- **C76** after every history of reads and edits, for every polygon (convex or not, whatever its size) and every point
(outside or inside): after a transform with positive determinant (in place or not) the tangent vertices seen from the
transformed point are the transformed tangent vertices. -/
theorem C76_tangents (eps : K) (vs : List (Vec2 K)) (s0 : Polygon K) (h : Polygon.new vs = .ok s0) (ops : List (PolyOp K))
    (T : Affine K) (hd : 0 < T.determinant) (p : Vec2 K) :
    let s := s0.after eps ops
    ∃ l r, (s.tangentsToPoint p).1 = .ok (l, r) ∧
      ((s.transformed T).tangentsToPoint (T.apply p)).1 = .ok (T.apply l, T.apply r) ∧
      ((s.imul T).tangentsToPoint (T.apply p)).1 = .ok (T.apply l, T.apply r) := by
  intro s
  obtain ⟨h1, h2, h3⟩ := transformed_new (eps := eps) h ops T
  have hl := after_length (eps := eps) h ops
  obtain ⟨l, r, e, -⟩ := C58_vertices s (by show 2 ≤ (s0.after eps ops).verts.length; omega) p
  refine ⟨l, r, e, ?_⟩
  rw [h2, and_self_iff]
  have i1 := new_after_inv (eps := eps) h ops
  have i2 : Inv eps ((s0.after eps ops).transformed T) := new_after_inv (eps := eps) h1 []
  rw [tangents_fast i2, h3, fast_iff hd.ne' (by omega), List.length_map]
  rw [show (s.tangentsToPoint p).1 = _ from tangents_fast i1 p] at e
  split_ifs at e ⊢ with hc
  · simp only [leftTan_apply hd, rightTan_apply hd, pyGet_map, bind, Except.bind, pure, Except.pure] at e ⊢
    cases hL : leftTan (s0.after eps ops).verts p with
    | error x => rw [hL] at e; cases e
    | ok i =>
      rw [hL] at e
      simp only at e ⊢
      cases hi : pyGet (s0.after eps ops).verts i with
      | error x => rw [hi] at e; cases e
      | ok u =>
        rw [hi] at e
        simp only at e ⊢
        cases hR : rightTan (s0.after eps ops).verts p with
        | error x => rw [hR] at e; cases e
        | ok j =>
          rw [hR] at e
          simp only at e ⊢
          cases hj : pyGet (s0.after eps ops).verts j with
          | error x => rw [hj] at e; cases e
          | ok v =>
            rw [hj] at e
            simp only at e ⊢
            injection e with e
            injection e with ea eb
            subst ea eb
            rfl
  · rw [ptTangents_apply hd, e]; rfl

theorem inHull_apply {T : Affine K} {vs : List (Vec2 K)} {p : Vec2 K} (h : InHull vs p) :
    InHull (vs.map T.apply) (T.apply p) := by
  induction h with
  | vertex v hv => exact .vertex _ (List.mem_map.mpr ⟨v, hv, rfl⟩)
  | between p q t hp hq h0 h1 ih1 ih2 =>
    have := InHull.between _ _ t ih1 ih2 h0 h1
    convert this using 1
    apply Vec2.ext <;> simp only [Affine.apply_x, Affine.apply_y] <;> ring

/-- **C76** a transform that mirrors (negative determinant) swaps left and right: for a polygon of at most 20 vertices and a
point outside its convex hull, the results for the transformed polygon and point are on the same lines of sight as the
transformed results, with left and right exchanged. -/
theorem C76_tangents_mirror (eps : K) (vs : List (Vec2 K)) (s0 : Polygon K) (h : Polygon.new vs = .ok s0)
    (ops : List (PolyOp K)) (T : Affine K) (hd : T.determinant < 0) (p : Vec2 K)
    (hlen : (s0.after eps ops).verts.length ≤ 20) (hp : ¬ InHull (s0.after eps ops).verts p) :
    let s := s0.after eps ops
    ∃ l r l' r', (s.tangentsToPoint p).1 = .ok (l, r) ∧
      ((s.transformed T).tangentsToPoint (T.apply p)).1 = .ok (l', r') ∧
      ((s.imul T).tangentsToPoint (T.apply p)).1 = .ok (l', r') ∧
      side (T.apply p) (T.apply r) l' = 0 ∧ side (T.apply p) (T.apply l) r' = 0 ∧
      LeftTangent (s.transformed T).verts (T.apply p) (T.apply r) ∧
      RightTangent (s.transformed T).verts (T.apply p) (T.apply l) := by
  intro s
  obtain ⟨h1, h2, h3⟩ := transformed_new (eps := eps) h ops T
  obtain ⟨l, r, e, hl, hr⟩ := C58_small eps vs s0 h ops p hlen hp
  have hp' : ¬ InHull ((s0.after eps ops).transformed T).verts (T.apply p) := by
    rw [h3]
    intro hc
    obtain ⟨U, hU, hinv⟩ := exists_inverse hd.ne
    have := inHull_apply (T := U) hc
    rw [map_inverse hinv, hinv] at this
    exact hp this
  obtain ⟨l', r', e', hl', hr'⟩ := C58_small eps _ _ h1 [] (T.apply p) (by
    show ((s0.after eps ops).transformed T).verts.length ≤ 20
    rw [h3, List.length_map]; exact hlen) hp'
  change (((s0.after eps ops).transformed T).tangentsToPoint (T.apply p)).1 = _ at e'
  change LeftTangent ((s0.after eps ops).transformed T).verts _ _ at hl'
  change RightTangent ((s0.after eps ops).transformed T).verts _ _ at hr'
  have tl : LeftTangent ((s0.after eps ops).transformed T).verts (T.apply p) (T.apply r) := by
    rw [h3]
    refine ⟨List.mem_map.mpr ⟨r, hr.1, rfl⟩, fun v hv => ?_⟩
    obtain ⟨w, hw, rfl⟩ := List.mem_map.mp hv
    rw [side_apply]
    exact mul_nonpos_of_nonpos_of_nonneg hd.le (hr.2 w hw)
  have tr : RightTangent ((s0.after eps ops).transformed T).verts (T.apply p) (T.apply l) := by
    rw [h3]
    refine ⟨List.mem_map.mpr ⟨l, hl.1, rfl⟩, fun v hv => ?_⟩
    obtain ⟨w, hw, rfl⟩ := List.mem_map.mp hv
    rw [side_apply]
    exact mul_nonneg_of_nonpos_of_nonpos hd.le (hl.2 w hw)
  have sw : ∀ a b c : Vec2 K, side a b c = -side a c b := by intro a b c; simp only [side]; ring
  refine ⟨l, r, l', r', e, e', by rw [h2]; exact e', ?_, ?_, tl, tr⟩
  · refine le_antisymm (tl.2 _ hl'.1) ?_
    rw [sw]; exact neg_nonneg.mpr (hl'.2 _ tl.1)
  · refine le_antisymm ?_ (tr.2 _ hr'.1)
    rw [sw]; exact neg_nonpos.mpr (hr'.2 _ tr.1)

/-- **C76** after every history of reads and edits: the centroid of a transformed polygon (in place or not) is the
transformed centroid, None if the centroid is None, and ZeroDivisionError if it is; for invertible transforms and polygons
that do not touch themselves or are in general position. -/
theorem C76_centroid (eps : K) (vs : List (Vec2 K)) (s0 : Polygon K) (h : Polygon.new vs = .ok s0) (ops : List (PolyOp K))
    (T : Affine K) (hd : T.determinant ≠ 0) (hg : General (s0.after eps ops).verts ∨ ¬ SelfTouching (s0.after eps ops).verts) :
    let s := s0.after eps ops
    (s.transformed T).getCentroid.1 = s.getCentroid.1.map (Option.map T.apply) ∧
    (s.imul T).getCentroid.1 = s.getCentroid.1.map (Option.map T.apply) := by
  intro s
  obtain ⟨h1, h2, h3⟩ := transformed_new (eps := eps) h ops T
  have hs := (C66_is_simple eps vs s0 h ops T hd hg).1
  have c1 := C47_centroid eps vs s0 h ops
  have c2 : let s := (s0.after eps ops).transformed T
    (s.isSimple.1 = true → area2 s.verts ≠ 0 → s.getCentroid.1 = .ok (some (areaCentroid s.verts))) ∧
    (s.isSimple.1 = true → area2 s.verts = 0 → s.getCentroid.1 = .error .zeroDivisionError) ∧
    (s.isSimple.1 = false → s.getCentroid.1 = .ok none) := C47_centroid eps _ _ h1 []
  have hs' : s = s0.after eps ops := rfl
  clear_value s
  subst hs'
  rw [h2, and_self_iff]
  generalize s0.after eps ops = s at *
  simp only at c1 c2
  rw [hs, h3] at c2
  cases hb : s.isSimple.1 with
  | false => rw [c1.2.2 hb, c2.2.2 hb]; rfl
  | true =>
    by_cases ha : area2 s.verts = 0
    · rw [c1.2.1 hb ha, c2.2.1 hb ?_]
      · rfl
      · by_contra hc
        obtain ⟨U, hU, hinv⟩ := exists_inverse hd
        have := (C47_affine U _ hU hc).2
        rw [map_inverse hinv] at this
        exact this ha
    · obtain ⟨e1, e2⟩ := C47_affine T s.verts hd ha
      rw [c1.1 hb ha, c2.1 hb e2, e1]; rfl

private instance : DecidableEq (Vec2 ℚ) := fun a b => decidable_of_iff (a.x = b.x ∧ a.y = b.y) Vec2.ext_iff.symm

/-- A quadrilateral and a shear: the box of the image is strictly smaller than the box of the image of the box, so that
`C76_box_general` cannot be an equality. -/
example : (match (Box.mulT (1/100000) ⟨⟨0, 0⟩, ⟨4, 4⟩⟩ (⟨1, 1, 0, 0, 1, 0⟩ : Affine ℚ)),
      (Polygon.fromPoints ([⟨0, 0⟩, ⟨4, 1⟩, ⟨3, 3⟩, ⟨1, 4⟩].map (⟨1, 1, 0, 0, 1, 0⟩ : Affine ℚ).apply)).boundingBox.1 with
    | .ok (.poly q), .ok t => match q.boundingBox.1 with
      | .ok r => decide (t.max.y < r.max.y)
      | .error _ => false
    | _, _ => false) = true := by decide +kernel

/-- Hypotheses of `C76_tangents_mirror`: a square seen from the left, mirrored. -/
example : ∃ s : Polygon ℚ, Polygon.new [⟨0, 0⟩, ⟨2, 0⟩, ⟨2, 2⟩, (⟨0, 2⟩ : Vec2 ℚ)] = .ok s ∧ s.verts.length ≤ 20 ∧
    ¬ InHull s.verts ⟨-1, 1⟩ ∧ (⟨1, 0, 0, 0, -1, 0⟩ : Affine ℚ).determinant < 0 := by
  refine ⟨_, C44_fresh_new 0 _ (by simp), by simp [Polygon.fromPoints, Polygon.cleared], ?_, by decide +kernel⟩
  intro h
  have := inHull_halfplane h (a := -1) (b := 0) (c := 0) (by
    intro v hv
    simp only [Polygon.fromPoints, Polygon.cleared, List.mem_cons, List.not_mem_nil, or_false] at hv
    rcases hv with rfl | rfl | rfl | rfl <;> norm_num)
  norm_num at this

/-- Hypotheses of `C76_centroid`: an arrow head does not touch itself. -/
example : ∃ s : Polygon ℚ, Polygon.new [⟨0, 0⟩, ⟨4, 0⟩, ⟨1, 1⟩, (⟨0, 4⟩ : Vec2 ℚ)] = .ok s ∧
    (match s.getCentroid.1, (s.transformed ⟨2, 1, 5, 0, 3, 0⟩).getCentroid.1 with
      | .ok (some c), .ok (some d) => decide (d = (⟨2, 1, 5, 0, 3, 0⟩ : Affine ℚ).apply c)
      | _, _ => false) = true :=
  ⟨_, rfl, by decide +kernel⟩

end Planar
