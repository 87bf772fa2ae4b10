import Verif.Props.ConvexExact
import Verif.Props.AllPolys
/- C49, C52: `contains_point` of a polygon with any history behind it, assignments and in-place transforms included. -/
set_option linter.unusedSectionVars false
namespace Planar
open Spec
open Polygon
variable {K : Type} [Field K] [LinearOrder K] [IsStrictOrderedRing K]

/-- A stored centroid is `None` only for a polygon that is not simple. -/
theorem centroid_none_inv {eps : K} {s : Polygon K} (h : Inv eps s) (hc : s.centroid = some none) :
    simpleVal s.verts = false := by
  by_contra hs
  have := h.centroid _ hc
  rw [centroidVal, if_pos (by simpa using hs)] at this
  rcases hcc : computeCentroid s.verts with e | c <;> rw [hcc] at this <;> cases this

/-- `None - point`. -/
theorem contains_none {eps : K} {s : Polygon K} (h4 : 4 < s.verts.length) (hc : s.centroid = some none) (p : PyPoint K) :
    (s.containsPoint eps p).1 = .error .typeError := by
  unfold containsPoint
  simp only [hc, h4, if_true, show s.verts.length ≠ 3 by omega, if_false]

theorem contains_current {eps : K} {s : Polygon K} (h : Inv eps s) (h4 : 4 ≤ s.verts.length)
    (hs : s.verts.length = 4 ∨ s.centroid ≠ some none) (hcv : cv s.verts = true → Convex s.verts) (p : PyPoint K) :
    ∃ b, (s.containsPoint eps p).1 = .ok b ∧ (b = true → winding s.verts p.toVec ≠ 0) ∧
      ((cv s.verts = true → Flat s.verts ∨ ¬ Swapped s.verts) → b = (winding s.verts p.toVec != 0)) := by
  have hne : s.verts ≠ [] := by rintro he; rw [he] at h4; simp at h4
  rw [contains_inv h h4 hs p]
  rcases ypl_cases h h4 with hy | ⟨hy, hcvt⟩
  · simp only [hy]
    exact ⟨_, rfl, by simp, fun _ => rfl⟩
  · simp only [hy]
    obtain ⟨b, hb, hb1, hb2⟩ := ymono_winding hne (hcv hcvt) p.toVec
    refine ⟨b, hb, hb1, fun hor => ?_⟩
    rcases hor hcvt with hf | hsw
    · exact hb2 (Or.inl hf)
    · by_cases hf : Flat s.verts
      · exact hb2 (Or.inl hf)
      · have := (ymono_exact hne (hcv hcvt) hf).1 hsw p.toVec
        rw [hb] at this
        injection this

theorem current_flags {eps : K} {s : Polygon K} (h : Inv eps s) (h4 : 4 ≤ s.verts.length) :
    s.isConvex.1 = cv s.verts ∧ s.isSimple.1 = simpleVal s.verts := by
  rw [(inv_isConvex h).1, (inv_isSimple h).1, convexVal, if_pos (by omega)]
  exact ⟨rfl, rfl⟩

/-- **C49** after any history of reads, vertex assignments and in-place transforms: a point that `contains_point` accepts
is in the convex hull of the vertices the polygon has then. (`is_convex` is True also for some polygons that are not
convex, see `C45_violated`; those are excluded.) -/
theorem C49_history (eps : K) (vs : List (Vec2 K)) (s : Polygon K) (h : Polygon.new vs = .ok s) (ops : List (PolyOp K))
    (hcv : (s.after eps ops).isConvex.1 = true → Convex (s.after eps ops).verts) (p : Vec2 K)
    (hc : ((s.after eps ops).containsPoint eps (.vec p)).1 = .ok true) : InHull (s.after eps ops).verts p := by
  obtain ⟨h3, rfl, hi, hv⟩ := new_inv h eps
  obtain ⟨hi', hl, -⟩ := inv_after hi ops
  rw [hv] at hl
  generalize (fromPoints vs).after eps ops = t at hi' hl hcv hc
  by_cases h4 : 4 ≤ t.verts.length
  · rw [(current_flags hi' h4).1] at hcv
    by_cases hs : t.verts.length = 4 ∨ t.centroid ≠ some none
    · obtain ⟨b, hb, hb1, -⟩ := contains_current hi' h4 hs hcv (.vec p)
      rw [hb] at hc
      injection hc with hc
      exact inHull_of_winding (hb1 hc)
    · push Not at hs
      rw [contains_none (by omega) hs.2] at hc
      cases hc
  · have h3' : t.verts.length = 3 := by omega
    apply C49_all eps t.verts (by omega) p
    have e1 : t.containsPoint eps (.vec p) = t.pnpTriangle eps (.vec p) := by unfold containsPoint; simp [h3']
    have e2 : (fromPoints t.verts).containsPoint eps (.vec p) = (fromPoints t.verts).pnpTriangle eps (.vec p) := by
      unfold containsPoint; simp [fromPoints, cleared, h3']
    rw [e2, ← (inv_pnpTriangle hi' h3' (.vec p)).2.2, ← e1, hc]

/-- **C52** the answer after any history, assignments and in-place transforms included, of a polygon with four or more
vertices: it is the winding rule on the vertices the polygon has then, provided it is (then) a quadrilateral or simple
and, if `is_convex` is True, it is convex and flat or not `Swapped`. In particular nothing of what was computed for
earlier vertices enters. (Partial: the provisos, see `C52_violated`, `C51_swapped_violated`.) -/
theorem C52_changes_partial (eps : K) (vs : List (Vec2 K)) (s : Polygon K) (h : Polygon.new vs = .ok s) (h4 : 4 ≤ vs.length)
    (ops : List (PolyOp K)) (hs : vs.length = 4 ∨ (s.after eps ops).isSimple.1 = true)
    (hcv : (s.after eps ops).isConvex.1 = true → Convex (s.after eps ops).verts ∧
      (Flat (s.after eps ops).verts ∨ ¬ Swapped (s.after eps ops).verts)) (p : PyPoint K) :
    ((s.after eps ops).containsPoint eps p).1 = .ok (winding (s.after eps ops).verts p.toVec != 0) := by
  obtain ⟨h3, rfl, hi, hv⟩ := new_inv h eps
  obtain ⟨hi', hl, -⟩ := inv_after hi ops
  rw [hv] at hl
  rw [← hl] at hs h4
  generalize (fromPoints vs).after eps ops = t at hi' hcv hs h4
  rw [(current_flags hi' h4).1] at hcv
  rw [(current_flags hi' h4).2] at hs
  obtain ⟨b, hb, -, hb1⟩ := contains_current hi' h4 (hs.imp_right fun hs hc => by
    rw [centroid_none_inv hi' hc] at hs; cases hs) (fun h => (hcv h).1) p
  rw [hb, hb1 fun h => (hcv h).2]

theorem isConvex_centroid (s : Polygon K) : s.isConvex.2.centroid = s.centroid := by
  unfold isConvex
  cases s.convex with
  | some b => rfl
  | none => simp only; rw [classify_eq]

/-- Which reads store `None` as the centroid of a polygon that is not simple. -/
theorem centroid_run {eps : K} {s : Polygon K} (h : Inv eps s) (h3 : s.verts.length ≠ 3) (hs : simpleVal s.verts = false)
    (op : PolyOp K) (hr : op.isRead = true) :
    (op.run eps s).centroid = some none ↔ s.centroid = some none ∨ op = .centroid := by
  cases op with
  | setItem i v => simp [PolyOp.isRead] at hr
  | imul T => simp [PolyOp.isRead] at hr
  | isConvex => simp only [PolyOp.run, isConvex_centroid]; simp
  | isSimple => simp only [PolyOp.run, (inv_isSimple h).2.2.2.1]; simp
  | boundingBox =>
    have : s.boundingBox.2.centroid = s.centroid := by
      unfold boundingBox
      split
      · rfl
      · split <;> rfl
    simp only [PolyOp.run, this]; simp
  | contains p =>
    have : (s.containsPoint eps p).2.centroid = s.centroid := by
      have hb : s.boundingBox.2.centroid = s.centroid := by
        unfold boundingBox
        split
        · rfl
        · split <;> rfl
      unfold containsPoint
      simp only [h3, if_false]
      split
      · rfl
      · rfl
      · split
        · rfl
        · split
          · rfl
          · split
            · rename_i heq
              rw [heq] at hb; exact hb
            · rename_i heq
              rw [heq] at hb
              split <;> exact hb
    simp only [PolyOp.run, this]; simp
  | tangents p =>
    have : (s.tangentsToPoint p).2.centroid = s.centroid := by
      unfold tangentsToPoint
      split
      · simp only
        split <;> exact isConvex_centroid s
      · rfl
    simp only [PolyOp.run, this]; simp
  | centroid =>
    simp only [PolyOp.run, or_true, iff_true]
    unfold getCentroid
    cases hc : s.centroid with
    | some c =>
      have := h.centroid _ hc
      rw [centroidVal, hs] at this
      simp only [Bool.false_eq_true, if_false, Except.ok.injEq] at this
      rw [hc, ← this]
    | none =>
      simp only
      rw [(inv_isSimple h).1, hs]
      simp

theorem centroid_after {eps : K} : ∀ (reads : List (PolyOp K)) {s : Polygon K}, Inv eps s → s.verts.length ≠ 3 →
    simpleVal s.verts = false → (∀ op ∈ reads, op.isRead = true) →
    ((s.after eps reads).centroid = some none ↔ s.centroid = some none ∨ PolyOp.centroid ∈ reads)
  | [], s, _, _, _, _ => by simp [Polygon.after]
  | op :: reads, s, h, h3, hs, hr => by
    have ho := hr op (by simp)
    have hv := (inv_run h op).2.2 ho
    have := centroid_after reads (inv_run h op).1 (by rw [hv]; exact h3) (by rw [hv]; exact hs)
      (fun o ho => hr o (by simp [ho]))
    rw [Polygon.after, List.foldl_cons, ← Polygon.after, this, centroid_run h h3 hs op ho, List.mem_cons, or_assoc,
      eq_comm (a := op)]

/-- **C52** exactly when `contains_point` of a polygon with more than four vertices raises after a history of reads:
when `centroid` was among the reads and the polygon is not simple; then it is TypeError, for every point. (If `is_convex`
is True the polygon is supposed to be convex.) -/
theorem C52_raises_violated (eps : K) (vs : List (Vec2 K)) (s : Polygon K) (h : Polygon.new vs = .ok s) (h5 : 5 ≤ vs.length)
    (hcv : s.isConvex.1 = true → Convex vs) (reads : List (PolyOp K)) (hr : ∀ op ∈ reads, op.isRead = true) (p : PyPoint K) :
    ((∃ e, ((s.after eps reads).containsPoint eps p).1 = .error e) ↔ PolyOp.centroid ∈ reads ∧ s.isSimple.1 = false) ∧
    ∀ e, ((s.after eps reads).containsPoint eps p).1 = .error e → e = .typeError := by
  obtain ⟨h3, rfl, hi, hv⟩ := new_inv h eps
  rw [(current_flags hi (by rw [hv]; omega)).1, hv] at hcv
  rw [(current_flags hi (by rw [hv]; omega)).2, hv]
  obtain ⟨hi', -, hv'⟩ := inv_after hi reads
  have hv' := hv' hr
  rw [hv] at hv'
  by_cases hc : ((fromPoints vs).after eps reads).centroid = some none
  · have hs := centroid_none_inv hi' hc
    rw [hv'] at hs
    rw [contains_none (by rw [hv']; omega) hc]
    rw [centroid_after reads hi (by rw [hv]; omega) (by rw [hv]; exact hs) hr] at hc
    refine ⟨⟨fun _ => ⟨hc.resolve_left (by simp [fromPoints, cleared]), hs⟩, fun _ => ⟨_, rfl⟩⟩, ?_⟩
    intro e he
    injection he with he
    exact he.symm
  · obtain ⟨b, hb, -⟩ := contains_current hi' (by rw [hv']; omega) (Or.inr hc) (by rw [hv']; exact hcv) p
    rw [hb]
    refine ⟨⟨fun ⟨e, he⟩ => (by cases he), fun ⟨h1, h2⟩ => absurd ?_ hc⟩, fun e he => (by cases he)⟩
    rw [centroid_after reads hi (by rw [hv]; omega) (by rw [hv]; exact h2) hr]
    exact Or.inr h1

/-- **C56** and what a deep copy answers to containment queries: the winding rule, whatever the history of the original
(the stored chains are not deep-copied), provided the polygon is a quadrilateral or simple. So a deep copy can differ from its original in `contains_point`, but only where the
original differs from the winding rule, see `C51_swapped_violated`. -/
theorem C56_deepcopy_contains (eps : K) (vs : List (Vec2 K)) (s : Polygon K) (h : Polygon.new vs = .ok s) (h4 : 4 ≤ vs.length)
    (ops : List (PolyOp K)) (hs : vs.length = 4 ∨ (s.after eps ops).isSimple.1 = true) (p : PyPoint K) :
    ((s.after eps ops).deepcopy.containsPoint eps p).1 = .ok (winding (s.after eps ops).verts p.toVec != 0) := by
  obtain ⟨h3, rfl, hi, hv⟩ := new_inv h eps
  obtain ⟨hi', hl, -⟩ := inv_after hi ops
  rw [hv] at hl
  rw [← hl] at hs h4
  generalize (fromPoints vs).after eps ops = t at hi' hs h4
  rw [(current_flags hi' h4).2] at hs
  have hs : t.verts.length = 4 ∨ t.centroid ≠ some none :=
    hs.imp_right fun hs hc => by rw [centroid_none_inv hi' hc] at hs; cases hs
  have hne : t.verts ≠ [] := by rintro he; rw [he] at h4; simp at h4
  have hv : t.deepcopy.verts = t.verts := by simp [deepcopy, Polygon.copy, fromPoints, cleared]
  have hce : t.deepcopy.centroid = t.centroid := rfl
  have hmi : t.deepcopy.minR2 = none := hi'.minR2
  have hma : t.deepcopy.maxR2 = none := hi'.maxR2
  have hy : t.deepcopy.yPolylines = none := rfl
  have hb : t.deepcopy.bbox = none := rfl
  generalize t.deepcopy = u at *
  obtain ⟨b, hbx, -⟩ := fromPoints_tight hne
  unfold containsPoint
  simp only [hv, show t.verts.length ≠ 3 by omega, if_false, hce, hmi, hma, hy]
  have tail : (if t.verts.length = 4 then (Except.ok (pnpWinding t.verts p.toVec), u)
      else match u.boundingBox with
        | (.error e, s) => (.error e, s)
        | (.ok b, s) =>
          if b.containsPoint p.toVec then (.ok (pnpWinding s.verts p.toVec), s)
          else (.ok false, s)).1 = .ok (winding t.verts p.toVec != 0) := by
    by_cases e4 : t.verts.length = 4
    · simp only [e4, if_true, pnpWinding_eq hne]
    · simp only [e4, if_false]
      unfold boundingBox
      simp only [hb, hv, hbx]
      rw [← box_winding hne hbx p.toVec]
      split <;> rfl
  cases hc : t.centroid with
  | none => exact tail
  | some c =>
    by_cases h5 : t.verts.length > 4
    · cases c with
      | none => rcases hs with hs | hs; exacts [absurd hs (by omega), absurd hc hs]
      | some c =>
        simp only [h5, if_true]
        exact tail
    · simp only [h5, if_false]
      exact tail

/-- **C56** an original and its deep copy that differ: a parallelogram whose `is_convex` was read. -/
theorem C56_deepcopy_differs : ∃ s : Polygon ℚ, Polygon.new [⟨0, 0⟩, ⟨4, 1⟩, ⟨5, 5⟩, (⟨1, 4⟩ : Vec2 ℚ)] = .ok s ∧
    (s.isConvex.2.containsPoint (1/100000) (.vec ⟨5/2, 5/2⟩)).1 = .ok false ∧
    (s.isConvex.2.deepcopy.containsPoint (1/100000) (.vec ⟨5/2, 5/2⟩)).1 = .ok true :=
  ⟨_, rfl, by decide +kernel, by decide +kernel⟩

/-- A polygon with a history to which `C49_history` and `C52_changes_partial` apply: a convex pentagon is classified, gets
a vertex moved inwards, is asked for its centroid, and is stretched. It is then simple and not convex, and both answers
occur. -/
example : ∃ s : Polygon ℚ, Polygon.new [⟨0, 0⟩, ⟨4, 0⟩, ⟨4, 4⟩, ⟨2, 5⟩, (⟨0, 4⟩ : Vec2 ℚ)] = .ok s ∧
    let t := s.after (1/100000) [.isConvex, .contains (.vec ⟨1, 1⟩), .setItem 3 ⟨2, 1⟩, .centroid,
      .imul ⟨2, 0, 0, 0, 1, 0⟩, .isSimple, .centroid]
    t.isSimple.1 = true ∧ t.isConvex.1 = false ∧ (t.containsPoint (1/100000) (.vec ⟨2, 1⟩)).1 = .ok true ∧
    (t.containsPoint (1/100000) (.vec ⟨4, 3⟩)).1 = .ok false :=
  ⟨_, rfl, by decide +kernel, by decide +kernel, by decide +kernel, by decide +kernel⟩

/-- `C52_raises_violated` for the pentagon of `C52_violated`. -/
example : ∃ s : Polygon ℚ, Polygon.new [⟨0, 0⟩, ⟨4, 4⟩, ⟨0, 4⟩, ⟨4, 0⟩, (⟨5, 2⟩ : Vec2 ℚ)] = .ok s ∧
    s.isConvex.1 = false ∧ s.isSimple.1 = false :=
  ⟨_, rfl, by decide +kernel, by decide +kernel⟩

end Planar
