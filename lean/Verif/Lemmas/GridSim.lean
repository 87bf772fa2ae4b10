import Verif.Lemmas.GridMore
import Verif.Model.History
/- The floating point run and the exact run of a polygon object side by side. -/
set_option linter.unusedSectionVars false
namespace Planar
open Spec Polygon

variable {F : Type} [Field F] [LinearOrder F] [IsStrictOrderedRing F] {R : Rounding F} {u : F} {B : ℤ}

/-- The cached polylines with exact numbers. -/
def exactPls (pls : List (Fl R × Fl R) × List (Fl R × Fl R)) : List (F × F) × List (F × F) :=
  (pls.1.map exactPair, pls.2.map exactPair)

/-- The floating point object `s` and the exact object `t` agree (triangle closure and centroid coordinates apart). -/
structure Sim (u : F) (B : ℤ) (s : Polygon (Fl R)) (t : Polygon F) : Prop where
  verts : t.verts = s.verts.map Vec2.exact
  grid : ∀ v ∈ s.verts, OnGrid u B v
  long : 4 ≤ s.verts.length
  convex : t.convex = s.convex
  simple : t.simple = s.simple
  dupe : t.dupeVerts = s.dupeVerts
  pls : t.yPolylines = s.yPolylines.map exactPls
  plsGrid : ∀ pl, s.yPolylines = some pl → (∀ q ∈ pl.1, PairGrid u B q) ∧ ∀ q ∈ pl.2, PairGrid u B q
  bbox : t.bbox = s.bbox.map Box.exact
  cen : s.centroid = none ∧ t.centroid = none
  minR : s.minR2 = none ∧ t.minR2 = none
  maxR : s.maxR2 = none ∧ t.maxR2 = none

theorem split_grid {vs : List (Vec2 (Fl R))} (h : ∀ v ∈ vs, OnGrid u B v) :
    (∀ q ∈ (splitYPolylines vs).1, PairGrid u B q) ∧ ∀ q ∈ (splitYPolylines vs).2, PairGrid u B q := by
  constructor
  · intro q hq
    obtain ⟨v, hv, rfl⟩ := splitYPolylines_mem (.inl hq)
    exact ⟨(h v hv).2, (h v hv).1⟩
  · intro q hq
    obtain ⟨v, hv, rfl⟩ := splitYPolylines_mem (.inr hq)
    exact ⟨(h v hv).2, (h v hv).1⟩

theorem split_exact (vs : List (Vec2 (Fl R))) : splitYPolylines (vs.map Vec2.exact) = exactPls (splitYPolylines vs) :=
  splitYPolylines_exact vs

theorem sim_cleared {vs : List (Vec2 (Fl R))} (h : ∀ v ∈ vs, OnGrid u B v) (h4 : 4 ≤ vs.length)
    (o : Option (TriClosure (Fl R))) (o' : Option (TriClosure F)) :
    Sim u B (cleared vs o) (cleared (vs.map Vec2.exact) o') := by
  constructor <;> simp [cleared, h4]
  exact h

theorem sim_new (hG : FineGrid R u B) {vs : List (Vec2 (Fl R))} (h : ∀ v ∈ vs, OnGrid u B v) (h4 : 4 ≤ vs.length)
    (c m : Option Bool) : ∃ s t, Polygon.new vs c m = .ok s ∧ Polygon.new (vs.map Vec2.exact) c m = .ok t ∧ Sim u B s t := by
  have hm1 : vs.map Vec2.copy = vs := List.map_id'' Vec2.copy_fl vs
  have hm2 : (vs.map Vec2.exact).map Vec2.copy = vs.map Vec2.exact := List.map_id'' Vec2.copy_fl _
  have hl : ¬ vs.length < 3 := by omega
  have hl3 : vs.length > 3 := by omega
  unfold Polygon.new
  simp only [hm1, hm2, List.length_map, hl, if_false]
  refine ⟨_, _, rfl, rfl, ?_⟩
  have hs := split_grid h
  rcases c with _ | _ | _ <;> rcases m with _ | _ <;>
    constructor <;> first | exact h | (simp [cleared, hl3, h4, split_exact]; try first | exact h | exact ⟨fun a b => hs.1 (a, b), fun a b => hs.2 (a, b)⟩)

theorem sim_classify (hG : FineGrid R u B) {s : Polygon (Fl R)} {t : Polygon F} (h : Sim u B s t) :
    Sim u B s.classify t.classify := by
  have hr : Polygon.classifyRun t.verts = Polygon.classifyRun s.verts := by rw [h.verts, hG.classifyRun h.grid]
  have hsp : splitYPolylines t.verts = exactPls (splitYPolylines s.verts) := by rw [h.verts, split_exact]
  have hlen : t.verts.length = s.verts.length := by rw [h.verts, List.length_map]
  unfold classify
  simp only [hr, hlen, hsp]
  set convex := (if (Polygon.classifyRun s.verts).dirChanges ≤ 2 then (Polygon.classifyRun s.verts).convex else false)
  set degenerate := ((Polygon.classifyRun s.verts).count == 0 || (Polygon.classifyRun s.verts).angleSign == 0)
  split
  · exact ⟨h.verts, h.grid, h.long, rfl, rfl, rfl, rfl, by rintro pl ⟨⟩; exact split_grid h.grid, h.bbox, h.cen,
      h.minR, h.maxR⟩
  · exact ⟨h.verts, h.grid, h.long, rfl, rfl, h.dupe, h.pls, h.plsGrid, h.bbox, h.cen, h.minR, h.maxR⟩

theorem sim_isConvex (hG : FineGrid R u B) {s : Polygon (Fl R)} {t : Polygon F} (h : Sim u B s t) :
    t.isConvex.1 = s.isConvex.1 ∧ Sim u B s.isConvex.2 t.isConvex.2 := by
  unfold isConvex
  rw [h.convex]
  have hc := sim_classify hG h
  cases s.convex with
  | some b => exact ⟨rfl, h⟩
  | none => exact ⟨by simp only [hc.convex], hc⟩

theorem sim_isSimple (hG : FineGrid R u B) {s : Polygon (Fl R)} {t : Polygon F} (h : Sim u B s t) :
    t.isSimple.1 = s.isSimple.1 ∧ Sim u B s.isSimple.2 t.isSimple.2 := by
  have key : ∀ (s : Polygon (Fl R)) (t : Polygon F), Sim u B s t →
      (match t.simple with
        | some b => (b, t)
        | none => (checkSimple t.verts, { t with simple := some (checkSimple t.verts) })).1 =
      (match s.simple with
        | some b => (b, s)
        | none => (checkSimple s.verts, { s with simple := some (checkSimple s.verts) })).1 ∧
      Sim u B (match s.simple with
        | some b => (b, s)
        | none => (checkSimple s.verts, { s with simple := some (checkSimple s.verts) })).2
      (match t.simple with
        | some b => (b, t)
        | none => (checkSimple t.verts, { t with simple := some (checkSimple t.verts) })).2 := by
    intro s t h
    have hk : checkSimple t.verts = checkSimple s.verts := by rw [h.verts, hG.checkSimple h.grid]
    rw [h.simple, hk]
    cases s.simple with
    | some b => exact ⟨rfl, h⟩
    | none =>
      exact ⟨rfl, ⟨h.verts, h.grid, h.long, h.convex, rfl, h.dupe, h.pls, h.plsGrid, h.bbox, h.cen, h.minR, h.maxR⟩⟩
  unfold isSimple
  rw [h.simple]
  cases hs : s.simple with
  | some b => exact ⟨rfl, h⟩
  | none =>
    simp only
    rw [h.convex]
    cases s.convex with
    | some b => exact key s t h
    | none => exact key _ _ (sim_classify hG h)

theorem sim_boundingBox {s : Polygon (Fl R)} {t : Polygon F} (h : Sim u B s t) :
    t.boundingBox.1 = s.boundingBox.1.map Box.exact ∧ Sim u B s.boundingBox.2 t.boundingBox.2 := by
  unfold boundingBox
  rw [h.bbox]
  cases s.bbox with
  | some b => exact ⟨rfl, h⟩
  | none =>
    simp only [Option.map]
    rw [h.verts, fromPoints_exact]
    cases Box.fromPoints s.verts with
    | error e => exact ⟨rfl, h⟩
    | ok b =>
      refine ⟨rfl, ?_⟩
      exact ⟨rfl, h.grid, h.long, h.convex, h.simple, h.dupe, h.pls, h.plsGrid, rfl, h.cen, h.minR, h.maxR⟩

theorem sim_contains (hG : FineGrid R u B) {s : Polygon (Fl R)} {t : Polygon F} (h : Sim u B s t) (eps : Fl R) (eps' : F)
    (p : PyPoint (Fl R)) (q : PyPoint F) (hq : q.toVec = p.toVec.exact) (hp : OnGrid u B p.toVec) :
    (t.containsPoint eps' q).1 = (s.containsPoint eps p).1 ∧
    Sim u B (s.containsPoint eps p).2 (t.containsPoint eps' q).2 := by
  have hlen : t.verts.length = s.verts.length := by rw [h.verts, List.length_map]
  have hl := h.long
  have h3 : ¬ s.verts.length = 3 := by omega
  have hbb := sim_boundingBox h
  unfold containsPoint
  simp only [hlen, h3, if_false, h.cen.1, h.cen.2, hq]
  rw [h.pls]
  cases hy : s.yPolylines with
  | some pls =>
    obtain ⟨g1, g2⟩ := h.plsGrid pls hy
    exact ⟨hG.pnpYMonotone hp g1 g2, h⟩
  | none =>
    simp only [Option.map]
    by_cases h4 : s.verts.length = 4
    · simp only [h4, if_true]
      exact ⟨by rw [h.verts, ← hG.pnpWinding hp h.grid], h⟩
    · simp only [h4, if_false]
      rcases hx : s.boundingBox with ⟨r1, t1⟩
      rcases hz : t.boundingBox with ⟨r2, t2⟩
      rw [hx, hz] at hbb
      obtain ⟨hb1, hb2⟩ := hbb
      simp only at hb1 hb2
      subst hb1
      cases r1 with
      | error e => exact ⟨rfl, hb2⟩
      | ok b =>
        simp only [Except.map, boxContains_exact]
        split
        · exact ⟨by rw [hb2.verts, ← hG.pnpWinding hp hb2.grid], hb2⟩
        · exact ⟨rfl, hb2⟩

theorem sim_tangents (hG : FineGrid R u B) {s : Polygon (Fl R)} {t : Polygon F} (h : Sim u B s t)
    {p : Vec2 (Fl R)} (hp : OnGrid u B p) :
    (t.tangentsToPoint p.exact).1 = (s.tangentsToPoint p).1.map exactTan ∧
    Sim u B (s.tangentsToPoint p).2 (t.tangentsToPoint p.exact).2 := by
  have hlen : t.verts.length = s.verts.length := by rw [h.verts, List.length_map]
  obtain ⟨hc, hS⟩ := sim_isConvex hG h
  have slow : ∀ (s : Polygon (Fl R)) (t : Polygon F), Sim u B s t →
      ptTangents t.verts p.exact = (ptTangents s.verts p).map exactTan := by
    intro s t h; rw [h.verts, hG.ptTangents hp h.grid]
  unfold tangentsToPoint
  simp only [hlen]
  split
  · simp only [hc, hS.dupe]
    split
    · refine ⟨?_, hS⟩
      rw [hS.verts, hG.leftTan hp hS.grid, hG.rightTan hp hS.grid]
      cases leftTan s.isConvex.2.verts p with
      | error e => rfl
      | ok l =>
        simp only [bind, Except.bind, pyGet_map]
        cases pyGet s.isConvex.2.verts l with
        | error e => rfl
        | ok lv =>
          simp only [Except.map]
          cases rightTan s.isConvex.2.verts p with
          | error e => rfl
          | ok r =>
            simp only
            cases pyGet s.isConvex.2.verts r with
            | error e => rfl
            | ok rv => rfl
    · exact ⟨slow _ _ hS, hS⟩
  · exact ⟨slow _ _ h, h⟩

theorem sim_setItem {s : Polygon (Fl R)} {t : Polygon F} (h : Sim u B s t) (i : Int)
    {v : Vec2 (Fl R)} (hv : OnGrid u B v) :
    (t.setItem i v.exact).1 = (s.setItem i v).1 ∧ Sim u B (s.setItem i v).2 (t.setItem i v.exact).2 := by
  have hlen : t.verts.length = s.verts.length := by rw [h.verts, List.length_map]
  unfold setItem pySet
  rw [hlen]
  cases hk : pyIndex s.verts.length i with
  | none => exact ⟨rfl, h⟩
  | some k =>
    refine ⟨rfl, ?_⟩
    simp only [clearCached, Vec2.copy_fl]
    rw [h.verts, ← List.map_set]
    refine sim_cleared ?_ (by simp; exact h.long) _ _
    intro w hw
    rcases List.mem_or_eq_of_mem_set hw with hw | rfl
    · exact h.grid w hw
    · exact hv

end Planar
