import Verif.Props.HullOrder
import Verif.Props.HullObject
import Verif.Props.Equivariance
/- C91: convex hulls and other operations: transforms, bounding boxes, hulls of hulls. -/
set_option linter.unusedSectionVars false
namespace Planar
open Spec Polygon Hull
variable {K : Type} [Field K] [LinearOrder K] [IsStrictOrderedRing K]

namespace Hull

theorem spread {ps : List (Vec2 K)} (h : ¬ Flat ps) : ∃ a ∈ ps, ∃ b ∈ ps, a.x ≠ b.x := by
  by_contra hcon
  push Not at hcon
  apply h
  intro a ha b hb c hc
  simp only [side]
  rw [hcon a ha b hb, hcon c hc b hb]; ring

theorem hull_long {o : List (Vec2 K) → List (Vec2 K)} {ps : List (Vec2 K)} {r : Polygon K} (hr : Hull.convexHull o ps = .ok r) :
    3 ≤ r.verts.length := by
  have hn := convexHull_new hr
  by_contra hcon
  have := (C43_new r.verts (some true) none).1 (by omega)
  rw [hn] at this
  simp at this

/-- The edges of a hull that has lost no point. -/
theorem hull_edges {order : List (Vec2 K) → List (Vec2 K)} (hord : ∀ l, (order l).Perm l) {points : List (Vec2 K)}
    (hflat : ¬ Flat points) (hg : GeneralPosition points) {s : Polygon K} (hs : Hull.convexHull order points = .ok s)
    (hin : ∀ p ∈ points, InHull s.verts p) (v w : Vec2 K) :
    (v, w) ∈ edges s.verts ↔ v ∈ points ∧ w ∈ points ∧ v ≠ w ∧ ∀ p ∈ points, side v w p ≤ 0 :=
  edges_iff hg (C57_vertices order hord points s hs) (C57_nodup order hord points (spread hflat) s hs) hin
    ((C57_exact_partial order hord points hflat s hs).2.mp hin) (by have := hull_long hs; omega) v w

end Hull

/-- **C91** the bounding box of the hull is the bounding box of the points. (Partial: when the hull has lost no point, C57; left and
right sides in any case, `C91_width`.) -/
theorem C91_bounding_box_partial (order : List (Vec2 K) → List (Vec2 K)) (hord : ∀ l, (order l).Perm l) (points : List (Vec2 K))
    (s : Polygon K) (hs : Hull.convexHull order points = .ok s) (hin : ∀ p ∈ points, InHull s.verts p) :
    s.boundingBox.1 = Box.fromPoints points := by
  have hn := convexHull_new hs
  have h3 := hull_long hs
  have hb : s.boundingBox.1 = Box.fromPoints s.verts := by
    have hbb : s.bbox = none := by
      rw [new_eq s.verts (some true) none h3] at hn
      injection hn with hn
      rw [← hn]
      split <;> rfl
    unfold boundingBox
    rw [hbb]
    simp only; cases hf : Box.fromPoints s.verts <;> rfl
  rw [hb]
  obtain ⟨b, hb, ht⟩ := fromPoints_tight (ps := s.verts) (by rintro h; rw [h] at h3; simp at h3)
  rw [hb, eq_comm, fromPoints_iff]
  have hsub := C57_vertices order hord points s hs
  obtain ⟨t0, ⟨p1, m1, e1⟩, ⟨p2, m2, e2⟩, ⟨p3, m3, e3⟩, ⟨p4, m4, e4⟩⟩ := ht
  refine ⟨?_, ⟨p1, hsub _ m1, e1⟩, ⟨p2, hsub _ m2, e2⟩, ⟨p3, hsub _ m3, e3⟩, ⟨p4, hsub _ m4, e4⟩⟩
  intro p hp
  have h1 := inHull_halfplane (hin p hp) (a := 1) (b := 0) (c := b.max.x) (fun v hv => by have := (t0 v hv); simp [Box.Encloses] at this ⊢; tauto)
  have h2 := inHull_halfplane (hin p hp) (a := -1) (b := 0) (c := -b.min.x) (fun v hv => by have := (t0 v hv); simp [Box.Encloses] at this ⊢; tauto)
  have h3 := inHull_halfplane (hin p hp) (a := 0) (b := 1) (c := b.max.y) (fun v hv => by have := (t0 v hv); simp [Box.Encloses] at this ⊢; tauto)
  have h4 := inHull_halfplane (hin p hp) (a := 0) (b := -1) (c := -b.min.y) (fun v hv => by have := (t0 v hv); simp [Box.Encloses] at this ⊢; tauto)
  simp [Box.Encloses] at h1 h2 h3 h4 ⊢
  tauto

/-- **C91** a leftmost and a rightmost point are vertices of the hull, even if other points are lost. -/
theorem C91_width (order : List (Vec2 K) → List (Vec2 K)) (hord : ∀ l, (order l).Perm l) (points : List (Vec2 K))
    (h : ¬ Flat points) (s : Polygon K) (hs : Hull.convexHull order points = .ok s) :
    ∃ L ∈ s.verts, ∃ R ∈ s.verts, ∀ p ∈ points, L.x ≤ p.x ∧ p.x ≤ R.x := by
  obtain ⟨L, R, up, lo, t1, t2, hv, -, hx, -⟩ := hull_chains hord h hs
  exact ⟨L, by simp [hv], R, by simp [hv], hx⟩

/-- **C91** transforms: the hull of the transformed points is the transformed hull, up to `==`, for a transform that is not
degenerate. (Partial: when neither hull has lost a point and no three different points are on a line.) -/
theorem C91_transform_partial (order order' : List (Vec2 K) → List (Vec2 K)) (hord : ∀ l, (order l).Perm l)
    (hord' : ∀ l, (order' l).Perm l) (points : List (Vec2 K)) (T : Affine K) (hd : T.determinant ≠ 0) (hflat : ¬ Flat points)
    (hg : GeneralPosition points) (s s' : Polygon K) (hs : Hull.convexHull order points = .ok s)
    (hs' : Hull.convexHull order' (points.map T.apply) = .ok s') (hin : ∀ p ∈ points, InHull s.verts p)
    (hin' : ∀ p ∈ points.map T.apply, InHull s'.verts p) :
    (s.transformed T).eq s' = true ∧
    ∃ k, s'.verts = (if 0 < T.determinant then s.verts.map T.apply else (s.verts.map T.apply).reverse).rotate k := by
  have inj : ∀ u v, T.apply u = T.apply v → u = v := fun u v => apply_inj hd
  have hflat' : ¬ Flat (points.map T.apply) := by
    intro h
    apply hflat
    intro a ha b hb c hc
    have := h _ (List.mem_map_of_mem ha) _ (List.mem_map_of_mem hb) _ (List.mem_map_of_mem hc)
    rw [side_apply] at this
    exact (mul_eq_zero.mp this).resolve_left hd
  have hg' : GeneralPosition (points.map T.apply) := by
    intro a ha b hb c hc h
    obtain ⟨a, ha', rfl⟩ := List.mem_map.mp ha
    obtain ⟨b, hb', rfl⟩ := List.mem_map.mp hb
    obtain ⟨c, hc', rfl⟩ := List.mem_map.mp hc
    rw [side_apply] at h
    rcases hg a ha' b hb' c hc' ((mul_eq_zero.mp h).resolve_left hd) with h | h | h
    · exact Or.inl (by rw [h])
    · exact Or.inr (Or.inl (by rw [h]))
    · exact Or.inr (Or.inr (by rw [h]))
  have key := hull_edges hord hflat hg hs hin
  have key' := hull_edges hord' hflat' hg' hs' hin'
  have l := hull_long hs
  have hnd : (s.verts.map T.apply).Nodup :=
    (List.nodup_map_iff fun u v => inj u v).mpr (C57_nodup order hord points (spread hflat) s hs)
  have hnd' := C57_nodup order' hord' _ (spread hflat') s' hs'
  have hne : s.verts.map T.apply ≠ [] := by intro h; rw [List.map_eq_nil_iff] at h; rw [h] at l; simp at l
  have htv : (s.transformed T).verts = s.verts.map T.apply := by
    have : T.applyPts s.verts = s.verts.map T.apply := rfl
    simp [Polygon.transformed, this, Polygon.fromPoints, map_copy', cleared]
  have hrot : ∃ k, s'.verts = (if 0 < T.determinant then s.verts.map T.apply else (s.verts.map T.apply).reverse).rotate k := by
    split_ifs with hpos
    · refine rotated_of_edges hnd hnd' hne fun e he => ?_
      rw [edges_map] at he
      obtain ⟨⟨v, w⟩, he', rfl⟩ := List.mem_map.mp he
      obtain ⟨h1, h2, h3, h4⟩ := (key v w).mp he'
      rw [key']
      refine ⟨List.mem_map_of_mem h1, List.mem_map_of_mem h2, fun h => h3 (inj _ _ h), ?_⟩
      intro p hp
      obtain ⟨p, hp', rfl⟩ := List.mem_map.mp hp
      rw [side_apply]
      exact mul_nonpos_of_nonneg_of_nonpos hpos.le (h4 p hp')
    · refine rotated_of_edges (List.nodup_reverse.mpr hnd) hnd' (by simpa using hne) fun e he => ?_
      have he := (edges_reverse_perm _).mem_iff.mp he
      rw [edges_map] at he
      obtain ⟨e', he1, rfl⟩ := List.mem_map.mp he
      obtain ⟨⟨v, w⟩, he2, rfl⟩ := List.mem_map.mp he1
      obtain ⟨h1, h2, h3, h4⟩ := (key v w).mp he2
      simp only [Prod.swap]
      rw [key']
      refine ⟨List.mem_map_of_mem h2, List.mem_map_of_mem h1, fun h => h3 (inj _ _ h).symm, ?_⟩
      intro p hp
      obtain ⟨p, hp', rfl⟩ := List.mem_map.mp hp
      rw [side_apply]
      have : side w v p = -side v w p := by simp only [side]; ring
      rw [this]
      have := h4 p hp'
      exact mul_nonpos_of_nonpos_of_nonneg (not_lt.mp hpos) (by linarith)
  refine ⟨?_, hrot⟩
  obtain ⟨k, hk⟩ := hrot
  refine C55_complete _ s' (by rw [htv]; simpa using l) k ?_
  rw [htv]
  split_ifs at hk
  · exact Or.inl hk
  · exact Or.inr hk

/-- **C91** the hull of the vertices of a hull is `==` to it. (Partial: under the same conditions.) -/
theorem C91_again_partial (order order' : List (Vec2 K) → List (Vec2 K)) (hord : ∀ l, (order l).Perm l)
    (hord' : ∀ l, (order' l).Perm l) (points : List (Vec2 K)) (hflat : ¬ Flat points)
    (hg : GeneralPosition points) (s s' : Polygon K) (hs : Hull.convexHull order points = .ok s)
    (hs' : Hull.convexHull order' s.verts = .ok s') (hin : ∀ p ∈ points, InHull s.verts p)
    (hin' : ∀ p ∈ s.verts, InHull s'.verts p) : s.eq s' = true ∧ ∃ k, s'.verts = s.verts.rotate k := by
  have hsub := C57_vertices order hord points s hs
  obtain ⟨-, -, hflat'⟩ := C57_convex order hord points hflat s hs
  have hg' : GeneralPosition s.verts := fun a ha b hb c hc => hg a (hsub a ha) b (hsub b hb) c (hsub c hc)
  have key := hull_edges hord hflat hg hs hin
  have key' := hull_edges hord' hflat' hg' hs' hin'
  have l := hull_long hs
  have hrot : ∃ k, s'.verts = s.verts.rotate k := by
    refine rotated_of_edges (C57_nodup order hord points (spread hflat) s hs) (C57_nodup order' hord' _ (spread hflat') s' hs')
      (by intro h; rw [h] at l; simp at l) fun e he => ?_
    obtain ⟨v, w⟩ := e
    obtain ⟨m1, m2⟩ := edges_mem he
    obtain ⟨-, -, h3, h4⟩ := (key v w).mp he
    exact (key' v w).mpr ⟨m1, m2, h3, fun p hp => h4 p (hsub p hp)⟩
  obtain ⟨k, hk⟩ := hrot
  exact ⟨C55_complete s s' l k (Or.inl hk), ⟨k, hk⟩⟩

/-- The hypotheses: five points, no three on a line, one of them inside, and a transform that mirrors and shears. -/
example : let points : List (Vec2 ℚ) := [⟨0, 0⟩, ⟨4, 1⟩, ⟨2, 2⟩, ⟨3, 5⟩, ⟨1, 6⟩]
    let T : Affine ℚ := ⟨1, 2, 7, 3, 1, 0⟩
    T.determinant < 0 ∧ ¬ Flat points ∧ GeneralPosition points ∧ ∃ s s' s'', Hull.convexHull id points = .ok s ∧
      Hull.convexHull id (points.map T.apply) = .ok s' ∧ Hull.convexHull id s.verts = .ok s'' ∧ s.verts.length = 4 ∧
      (∀ p ∈ points, InHull s.verts p) ∧ (∀ p ∈ points.map T.apply, InHull s'.verts p) ∧ (∀ p ∈ s.verts, InHull s''.verts p) := by
  intro points T
  have hd : T.determinant < 0 := by simp only [T, Affine.determinant]; norm_num
  have hfl : ¬ Flat points := by
    intro h
    have := h ⟨0, 0⟩ (by simp [points]) ⟨4, 1⟩ (by simp [points]) ⟨2, 2⟩ (by simp [points])
    simp only [side] at this
    norm_num at this
  have hfl' : ¬ Flat (points.map T.apply) := by
    intro h
    have := h _ (List.mem_map_of_mem (a := ⟨0, 0⟩) (by simp [points])) _ (List.mem_map_of_mem (a := ⟨4, 1⟩) (by simp [points]))
      _ (List.mem_map_of_mem (a := ⟨2, 2⟩) (by simp [points]))
    rw [side_apply] at this
    simp only [side, T, Affine.determinant] at this
    norm_num at this
  have hq : quickHull id points = .ok [⟨0, 0⟩, ⟨1, 6⟩, ⟨3, 5⟩, ⟨4, 1⟩] := ok_of (by decide +kernel)
  obtain ⟨s0, hs0, hv⟩ := convexHull_ok hq (by simp)
  obtain ⟨s, hs, -, hin, -⟩ := C57_small id (fun l => .refl l) points hfl (by simp [points])
  obtain rfl : s0 = s := by rw [hs0] at hs; injection hs
  obtain ⟨s', hs', -, hin', -⟩ := C57_small id (fun l => .refl l) _ hfl' (by simp [points])
  obtain ⟨s'', hs'', -, hin'', -⟩ := C57_small id (fun l => .refl l) s0.verts (C57_convex id (fun l => .refl l) points hfl s0 hs).2.2
    (by rw [hv]; simp)
  refine ⟨hd, hfl, ?_, s0, s', s'', hs, hs', hs'', by rw [hv]; rfl, hin, hin', hin''⟩
  simp only [points, GeneralPosition, List.mem_cons, List.not_mem_nil, or_false, forall_eq_or_imp, forall_eq, side]
  norm_num

end Planar
