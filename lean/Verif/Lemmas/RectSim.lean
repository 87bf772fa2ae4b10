import Verif.Lemmas.Rectilinear
/- The floating point run and the exact run of a rectilinear polygon object side by side. -/
set_option linter.unusedSectionVars false
namespace Planar
open Spec Polygon

variable {F : Type} [Field F] [LinearOrder F] [IsStrictOrderedRing F] {R : Rounding F}

/-- The floating point object `s` and the exact object `t` agree (triangle closure and centroid coordinates apart). -/
structure RSim (s : Polygon (Fl R)) (t : Polygon F) : Prop where
  verts : t.verts = s.verts.map Vec2.exact
  rect : GoodPoly s.verts
  long : 4 ≤ s.verts.length
  convex : t.convex = s.convex
  simple : t.simple = s.simple
  dupe : t.dupeVerts = s.dupeVerts
  pls : t.yPolylines = s.yPolylines.map exactPls
  plsIs : ∀ pl, s.yPolylines = some pl → pl = splitYPolylines s.verts
  bbox : t.bbox = s.bbox.map Box.exact
  cen : s.centroid = none ∧ t.centroid = none
  minR : s.minR2 = none ∧ t.minR2 = none
  maxR : s.maxR2 = none ∧ t.maxR2 = none

theorem rsim_new {vs : List (Vec2 (Fl R))} (h : GoodPoly vs) (h4 : 4 ≤ vs.length)
    (c m : Option Bool) : ∃ s t, Polygon.new vs c m = .ok s ∧ Polygon.new (vs.map Vec2.exact) c m = .ok t ∧ RSim s t := by
  have hm1 : vs.map Vec2.copy = vs := List.map_id'' Vec2.copy_fl vs
  have hm2 : (vs.map Vec2.exact).map Vec2.copy = vs.map Vec2.exact := List.map_id'' Vec2.copy_fl _
  have hl : ¬ vs.length < 3 := by omega
  have hl3 : vs.length > 3 := by omega
  unfold Polygon.new
  simp only [hm1, hm2, List.length_map, hl, if_false]
  refine ⟨_, _, rfl, rfl, ?_⟩
  rcases c with _ | _ | _ <;> rcases m with _ | _ <;>
    constructor <;> first | exact h | (simp [cleared, hl3, h4, split_exact]; try exact h)

/-- Assigning a vertex clears what was stored, so the earlier answers do not matter. -/
theorem rsim_cleared {vs : List (Vec2 (Fl R))} (h : GoodPoly vs) (h4 : 4 ≤ vs.length)
    (o : Option (TriClosure (Fl R))) (o' : Option (TriClosure F)) :
    RSim (cleared vs o) (cleared (vs.map Vec2.exact) o') := by
  constructor <;> first | exact h | simp [cleared, h4]

theorem rsim_classify {s : Polygon (Fl R)} {t : Polygon F} (h : RSim s t) :
    RSim s.classify t.classify := by
  have hr : Polygon.classifyRun t.verts = Polygon.classifyRun s.verts := by
    rw [h.verts, rect_classifyRun h.rect (by have := h.long; omega)]
  have hsp : splitYPolylines t.verts = exactPls (splitYPolylines s.verts) := by rw [h.verts, split_exact]
  have hlen : t.verts.length = s.verts.length := by rw [h.verts, List.length_map]
  unfold classify
  simp only [hr, hlen, hsp]
  set convex := (if (Polygon.classifyRun s.verts).dirChanges ≤ 2 then (Polygon.classifyRun s.verts).convex else false)
  set degenerate := ((Polygon.classifyRun s.verts).count == 0 || (Polygon.classifyRun s.verts).angleSign == 0)
  split
  · exact ⟨h.verts, h.rect, h.long, rfl, rfl, rfl, rfl, by rintro pl ⟨⟩; rfl, h.bbox, h.cen, h.minR, h.maxR⟩
  · exact ⟨h.verts, h.rect, h.long, rfl, rfl, h.dupe, h.pls, h.plsIs, h.bbox, h.cen, h.minR, h.maxR⟩

theorem rsim_isConvex {s : Polygon (Fl R)} {t : Polygon F} (h : RSim s t) :
    t.isConvex.1 = s.isConvex.1 ∧ RSim s.isConvex.2 t.isConvex.2 := by
  unfold isConvex
  rw [h.convex]
  have hc := rsim_classify h
  cases s.convex with
  | some b => exact ⟨rfl, h⟩
  | none => exact ⟨by simp only [hc.convex], hc⟩

theorem rsim_isSimple {s : Polygon (Fl R)} {t : Polygon F} (h : RSim s t) :
    t.isSimple.1 = s.isSimple.1 ∧ RSim s.isSimple.2 t.isSimple.2 := by
  have key : ∀ (s : Polygon (Fl R)) (t : Polygon F), RSim s t →
      (match t.simple with
        | some b => (b, t)
        | none => (checkSimple t.verts, { t with simple := some (checkSimple t.verts) })).1 =
      (match s.simple with
        | some b => (b, s)
        | none => (checkSimple s.verts, { s with simple := some (checkSimple s.verts) })).1 ∧
      RSim (match s.simple with
        | some b => (b, s)
        | none => (checkSimple s.verts, { s with simple := some (checkSimple s.verts) })).2
      (match t.simple with
        | some b => (b, t)
        | none => (checkSimple t.verts, { t with simple := some (checkSimple t.verts) })).2 := by
    intro s t h
    have hk : checkSimple t.verts = checkSimple s.verts := by rw [h.verts, rect_checkSimple h.rect]
    rw [h.simple, hk]
    cases s.simple with
    | some b => exact ⟨rfl, h⟩
    | none =>
      exact ⟨rfl, ⟨h.verts, h.rect, h.long, h.convex, rfl, h.dupe, h.pls, h.plsIs, h.bbox, h.cen, h.minR, h.maxR⟩⟩
  unfold isSimple
  rw [h.simple]
  cases hs : s.simple with
  | some b => exact ⟨rfl, h⟩
  | none =>
    simp only
    rw [h.convex]
    cases s.convex with
    | some b => exact key s t h
    | none => exact key _ _ (rsim_classify h)

theorem rsim_boundingBox {s : Polygon (Fl R)} {t : Polygon F} (h : RSim s t) :
    t.boundingBox.1 = s.boundingBox.1.map Box.exact ∧ RSim s.boundingBox.2 t.boundingBox.2 := by
  unfold boundingBox
  rw [h.bbox]
  cases s.bbox with
  | some b => exact ⟨rfl, h⟩
  | none =>
    simp only [Option.map]
    rw [h.verts, fromPoints_exact]
    cases Box.fromPoints s.verts with
    | error e => exact ⟨rfl, h⟩
    | ok b =>
      refine ⟨rfl, ?_⟩
      exact ⟨rfl, h.rect, h.long, h.convex, h.simple, h.dupe, h.pls, h.plsIs, rfl, h.cen, h.minR, h.maxR⟩

theorem rsim_contains {s : Polygon (Fl R)} {t : Polygon F} (h : RSim s t) (eps : Fl R) (eps' : F)
    (p : PyPoint (Fl R)) (q : PyPoint F) (hq : q.toVec = p.toVec.exact) :
    (t.containsPoint eps' q).1 = (s.containsPoint eps p).1 ∧
    RSim (s.containsPoint eps p).2 (t.containsPoint eps' q).2 := by
  have hlen : t.verts.length = s.verts.length := by rw [h.verts, List.length_map]
  have hl := h.long
  have h3 : ¬ s.verts.length = 3 := by omega
  have hbb := rsim_boundingBox h
  unfold containsPoint
  simp only [hlen, h3, if_false, h.cen.1, h.cen.2, hq]
  rw [h.pls]
  cases hy : s.yPolylines with
  | some pls =>
    refine ⟨?_, h⟩
    rw [h.plsIs pls hy]
    have := rect_pnpYMonotone (p := p.toVec) h.rect (by rintro h0; rw [h0] at hl; simp at hl)
    rw [split_exact] at this
    exact this
  | none =>
    simp only [Option.map]
    by_cases h4 : s.verts.length = 4
    · simp only [h4, if_true]
      exact ⟨by rw [h.verts, ← rect_pnpWinding _ h.rect], h⟩
    · simp only [h4, if_false]
      rcases hx : s.boundingBox with ⟨r1, t1⟩
      rcases hz : t.boundingBox with ⟨r2, t2⟩
      rw [hx, hz] at hbb
      obtain ⟨hb1, hb2⟩ := hbb
      simp only at hb1 hb2
      subst hb1
      cases r1 with
      | error e => exact ⟨rfl, hb2⟩
      | ok b =>
        simp only [Except.map, boxContains_exact]
        split
        · exact ⟨by rw [hb2.verts, ← rect_pnpWinding _ hb2.rect], hb2⟩
        · exact ⟨rfl, hb2⟩

/-- What a tangent query leaves behind. (Its answers need not be exact.) -/
theorem rsim_tangents {s : Polygon (Fl R)} {t : Polygon F} (h : RSim s t)
    (p : Vec2 (Fl R)) (q : Vec2 F) : RSim (s.tangentsToPoint p).2 (t.tangentsToPoint q).2 := by
  have hlen : t.verts.length = s.verts.length := by rw [h.verts, List.length_map]
  obtain ⟨hc, hS⟩ := rsim_isConvex h
  unfold tangentsToPoint
  simp only [hlen]
  split
  · simp only [hc, hS.dupe]
    split
    · exact hS
    · exact hS
  · exact h

end Planar
