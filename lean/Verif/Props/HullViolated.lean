import Verif.Props.HullMaps
/- C90, C91: what goes wrong with convex hulls that lose points, also when no three points are on a line. -/
set_option linter.unusedSectionVars false
namespace Planar
open Spec Polygon Hull

private instance : DecidableEq (Vec2 ℚ) := fun a b => decidable_of_iff (a.x = b.x ∧ a.y = b.y) Vec2.ext_iff.symm

private instance (ps : List (Vec2 ℚ)) : Decidable (GeneralPosition ps) := by unfold GeneralPosition side; infer_instance

/-- Polygons with different sets of vertices are not `==`. -/
theorem ne_of_vertex {s t : Polygon ℚ} (hn : s.verts.Nodup) (h3 : 3 ≤ s.verts.length) (v : Vec2 ℚ) (hs : v ∉ s.verts) (ht : v ∈ t.verts) :
    s.eq t = false := by
  rw [Bool.eq_false_iff]
  intro he
  obtain ⟨k, hk⟩ := (C55_distinct s t h3 hn).mp he
  apply hs
  rcases hk with hk | hk <;> rw [hk] at ht <;> simpa using ht

/-- Eight points of which no three are on a line; two of them are leftmost. -/
def twoLeft : List (Vec2 ℚ) := [⟨0, 0⟩, ⟨200, -2000⟩, ⟨92, -408⟩, ⟨8, 45⟩, ⟨4, 30⟩, ⟨40, 20⟩, ⟨1, 12⟩, ⟨0, -51⟩]

/-- **C90** violated: with the same eight points in the opposite order the hull is another region: it has lost two points, one
of them the highest. -/
theorem C90_violated : GeneralPosition twoLeft ∧ ∃ s s' : Polygon ℚ,
    Hull.convexHull id twoLeft = .ok s ∧ Hull.convexHull id twoLeft.reverse = .ok s' ∧
    ⟨8, 45⟩ ∈ s.verts ∧ ¬ InHull s'.verts ⟨8, 45⟩ ∧ s.eq s' = false := by
  obtain ⟨s, hs, hv⟩ := convexHull_ok (order := id) (points := twoLeft)
    (h := [⟨0, 0⟩, ⟨1, 12⟩, ⟨4, 30⟩, ⟨8, 45⟩, ⟨40, 20⟩, ⟨92, -408⟩, ⟨200, -2000⟩, ⟨0, -51⟩]) (ok_of (by decide +kernel)) (by simp)
  obtain ⟨s', hs', hv'⟩ := convexHull_ok (order := id) (points := twoLeft.reverse)
    (h := [⟨0, -51⟩, ⟨1, 12⟩, ⟨40, 20⟩, ⟨92, -408⟩, ⟨200, -2000⟩]) (ok_of (by decide +kernel)) (by simp)
  have hlow : ¬ InHull s'.verts ⟨8, 45⟩ := by
    intro hin
    have := inHull_halfplane hin (a := 0) (b := 1) (c := 20) (by rw [hv']; simp; norm_num)
    norm_num at this
  refine ⟨by decide +kernel, s, s', hs, hs', by rw [hv]; simp, hlow, ?_⟩
  rw [Bool.eq_false_iff]
  intro he
  obtain ⟨k, hk⟩ := (C55_distinct s s' (by rw [hv]; decide +kernel) (by rw [hv]; simp)).mp he
  have hl : s'.verts.length = s.verts.length := by rcases hk with hk | hk <;> rw [hk] <;> simp
  rw [hv, hv'] at hl
  simp at hl

/-- Eight points of which no three are on a line. -/
def topLost : List (Vec2 ℚ) := [⟨0, 0⟩, ⟨200, -2000⟩, ⟨92, -408⟩, ⟨2, 20⟩, ⟨8, 45⟩, ⟨4, 30⟩, ⟨40, 20⟩, ⟨1, 12⟩]

/-- **C91** violated: the hull has lost the highest point, so that its bounding box is lower than the box of the points, and it is
not the mirror image of the hull of the mirror images of the points (which has this point as a vertex). -/
theorem C91_violated : GeneralPosition topLost ∧ ∃ (s s' : Polygon ℚ) (b b' : Box ℚ),
    Hull.convexHull id topLost = .ok s ∧ Hull.convexHull id (topLost.map (⟨-1, 0, 0, 0, 1, 0⟩ : Affine ℚ).apply) = .ok s' ∧
    s.boundingBox.1 = .ok b ∧ Box.fromPoints topLost = .ok b' ∧ b.max.y = 20 ∧ b'.max.y = 45 ∧
    (s.transformed ⟨-1, 0, 0, 0, 1, 0⟩).eq s' = false := by
  obtain ⟨s, hs, hv⟩ := convexHull_ok (order := id) (points := topLost)
    (h := [⟨0, 0⟩, ⟨1, 12⟩, ⟨40, 20⟩, ⟨92, -408⟩, ⟨200, -2000⟩]) (ok_of (by decide +kernel)) (by simp)
  obtain ⟨s', hs', hv'⟩ := convexHull_ok (order := id) (points := topLost.map (⟨-1, 0, 0, 0, 1, 0⟩ : Affine ℚ).apply)
    (h := [⟨-200, -2000⟩, ⟨-92, -408⟩, ⟨-40, 20⟩, ⟨-8, 45⟩, ⟨0, 0⟩]) (ok_of (by decide +kernel)) (by simp)
  have hb : s.boundingBox.1 = .ok ⟨⟨0, -2000⟩, ⟨200, 20⟩⟩ := by
    have hn := convexHull_new hs
    have hbb : s.bbox = none := by
      rw [new_eq s.verts (some true) none (by rw [hv]; simp)] at hn
      injection hn with hn
      rw [← hn]
      split <;> rfl
    simp only [Polygon.boundingBox, hbb, hv]
    simp only [Box.fromPoints, List.foldl, Box.step, Vec2.copy, Vec2.mk']
    norm_num
  have hb' : Box.fromPoints topLost = .ok ⟨⟨0, -2000⟩, ⟨200, 45⟩⟩ := by
    simp only [topLost, Box.fromPoints, List.foldl, Box.step, Vec2.copy, Vec2.mk']
    norm_num
  have htv : (s.transformed ⟨-1, 0, 0, 0, 1, 0⟩).verts = [⟨0, 0⟩, ⟨-1, 12⟩, ⟨-40, 20⟩, ⟨-92, -408⟩, ⟨-200, -2000⟩] := by
    simp [Polygon.transformed, Polygon.fromPoints, Affine.applyPts, hv, Vec2.copy, Vec2.mk', cleared]
  refine ⟨by decide +kernel, s, s', _, _, hs, hs', hb, hb', rfl, rfl, ?_⟩
  exact ne_of_vertex (by rw [htv]; decide +kernel) (by rw [htv]; simp) ⟨-8, 45⟩ (by rw [htv]; decide +kernel) (by rw [hv']; simp)

/-- Nine points of which no three are on a line. -/
def twice : List (Vec2 ℚ) := [⟨3, 0⟩, ⟨201, -2002⟩, ⟨92, -408⟩, ⟨2, 20⟩, ⟨8, 45⟩, ⟨4, 30⟩, ⟨40, 20⟩, ⟨1, 12⟩, ⟨45, 0⟩]

/-- **C91** violated: the hull of the nine points has lost none, but the hull of the list of its eight vertices, which are those of a
convex polygon, has only six and is another polygon. -/
theorem C91_again_violated : GeneralPosition twice ∧ ∃ s s' : Polygon ℚ,
    Hull.convexHull id twice = .ok s ∧ Hull.convexHull id s.verts = .ok s' ∧ Convex s.verts ∧ (∀ p ∈ twice, InHull s.verts p) ∧
    s.verts.length = 8 ∧ s'.verts.length = 6 ∧ s.eq s' = false := by
  obtain ⟨s, hs, hv⟩ := convexHull_ok (order := id) (points := twice)
    (h := [⟨1, 12⟩, ⟨2, 20⟩, ⟨4, 30⟩, ⟨8, 45⟩, ⟨40, 20⟩, ⟨45, 0⟩, ⟨92, -408⟩, ⟨201, -2002⟩]) (ok_of (by decide +kernel)) (by simp)
  obtain ⟨s', hs', hv'⟩ := convexHull_ok (order := id)
    (points := [⟨1, 12⟩, ⟨2, 20⟩, ⟨4, 30⟩, ⟨8, 45⟩, ⟨40, 20⟩, ⟨45, 0⟩, ⟨92, -408⟩, ⟨201, -2002⟩])
    (h := [⟨1, 12⟩, ⟨2, 20⟩, ⟨40, 20⟩, ⟨45, 0⟩, ⟨92, -408⟩, ⟨201, -2002⟩]) (ok_of (by decide +kernel)) (by simp)
  have hf : ¬ Flat twice := by
    intro h
    have := h ⟨3, 0⟩ (by simp [twice]) ⟨201, -2002⟩ (by simp [twice]) ⟨92, -408⟩ (by simp [twice])
    simp only [side] at this
    norm_num at this
  have hc := C57_convex id (fun l => .refl l) twice hf s hs
  have hin : ∀ p ∈ twice, InHull s.verts p := by
    rw [(C57_exact_partial id (fun l => .refl l) twice hf s hs).2, hv]
    decide +kernel
  refine ⟨by decide +kernel, s, s', hs, by rw [hv]; exact hs', hc.2.1, hin, by rw [hv]; rfl, by rw [hv']; rfl, ?_⟩
  rw [Bool.eq_false_iff]
  intro he
  obtain ⟨k, hk⟩ := (C55_distinct s s' (by rw [hv]; decide +kernel) (by rw [hv]; simp)).mp he
  have hl : s'.verts.length = s.verts.length := by rcases hk with hk | hk <;> rw [hk] <;> simp
  rw [hv, hv'] at hl
  simp at hl

end Planar
