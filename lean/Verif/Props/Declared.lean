import Verif.Props.AnyHistory
import Verif.Props.PolyFlags
/- C63, continued: `contains_point` of polygons with declared flags. -/
set_option linter.unusedSectionVars false
namespace Planar
open Spec
namespace Polygon
variable {K : Type} [Field K] [LinearOrder K] [IsStrictOrderedRing K] {eps : K} {s : Polygon K}

/-- What `contains_point` uses besides the centroid fits the vertices. -/
structure Calm (s : Polygon K) : Prop where
  bbox : ∀ b, s.bbox = some b → Box.fromPoints s.verts = .ok b
  minR2 : s.minR2 = none
  maxR2 : s.maxR2 = none
  ypl : s.yPolylines = none ∨ (s.yPolylines = some (splitYPolylines s.verts) ∧ cv s.verts = true)

theorem calm_cleared (vs : List (Vec2 K)) (t : Option (TriClosure K)) : Calm (cleared vs t) :=
  ⟨by simp [cleared], rfl, rfl, .inl rfl⟩

theorem calm_classify (h : Calm s) : Calm s.classify := by
  rw [classify_eq]
  refine ⟨h.bbox, h.minR2, h.maxR2, ?_⟩
  simp only
  split
  · rename_i hc
    exact .inr ⟨rfl, (Bool.and_eq_true_iff.mp hc).1⟩
  · exact h.ypl

theorem calm_isConvex (h : Calm s) : Calm s.isConvex.2 := by
  unfold isConvex
  split
  · exact h
  · exact calm_classify h

theorem calm_isSimple (h : Calm s) : Calm s.isSimple.2 := by
  have fin : ∀ t : Polygon K, Calm t → ∀ b, Calm { t with simple := some b } := fun t ht b => ⟨ht.bbox, ht.minR2, ht.maxR2, ht.ypl⟩
  unfold isSimple
  split
  · exact h
  · have h' : Calm (match s.convex with
        | none => s.classify
        | some _ => s) := by
      split
      · exact calm_classify h
      · exact h
    simp only
    split
    · exact h'
    · exact fin _ h' _

theorem calm_boundingBox (h : Calm s) : Calm s.boundingBox.2 := by
  unfold boundingBox
  split
  · exact h
  · split
    · exact h
    · rename_i b hb
      exact ⟨fun b' hb' => by simp only [Option.some.injEq] at hb'; rw [← hb']; exact hb, h.minR2, h.maxR2, h.ypl⟩

theorem calm_getCentroid (h : Calm s) : Calm s.getCentroid.2 := by
  unfold getCentroid
  split
  · exact h
  · have h' := calm_isSimple h
    simp only
    split
    · split
      · exact h'
      · exact ⟨h'.bbox, h'.minR2, h'.maxR2, h'.ypl⟩
    · exact ⟨h'.bbox, h'.minR2, h'.maxR2, h'.ypl⟩

/-- What `contains_point` leaves behind. -/
theorem contains_state (eps : K) (s : Polygon K) (p : PyPoint K) : (s.containsPoint eps p).2 = s ∨
    (s.containsPoint eps p).2 = s.boundingBox.2 ∨ ∃ c, (s.containsPoint eps p).2 = { s with triTest := some c } := by
  unfold containsPoint
  simp only
  split
  · unfold pnpTriangle
    split
    · exact .inl rfl
    · split
      · exact .inl rfl
      · exact .inl rfl
      · exact .inr (.inr ⟨_, rfl⟩)
  · split
    · exact .inl rfl
    · exact .inl rfl
    · split
      · exact .inl rfl
      · split
        · exact .inl rfl
        · split
          · rename_i heq; rw [heq]; exact .inr (.inl rfl)
          · rename_i heq; rw [heq]; split <;> exact .inr (.inl rfl)

theorem calm_run (h : Calm s) (op : PolyOp K) : Calm (op.run eps s) := by
  cases op with
  | setItem i v =>
    unfold PolyOp.run setItem
    simp only
    cases pySet s.verts i v.copy with
    | error e => exact h
    | ok vs => exact calm_cleared _ _
  | imul T => simp only [PolyOp.run, imul_eq_cleared]; exact calm_cleared _ _
  | isConvex => exact calm_isConvex h
  | isSimple => exact calm_isSimple h
  | centroid => exact calm_getCentroid h
  | boundingBox => exact calm_boundingBox h
  | contains p =>
    simp only [PolyOp.run]
    rcases contains_state eps s p with e | e | ⟨c, e⟩ <;> rw [e]
    · exact h
    · exact calm_boundingBox h
    · exact ⟨h.bbox, h.minR2, h.maxR2, h.ypl⟩
  | tangents p =>
    rcases tangents_state s p with e | e <;> simp only [PolyOp.run, e]
    · exact h
    · exact calm_isConvex h

theorem calm_after (h : Calm s) (ops : List (PolyOp K)) : Calm (s.after eps ops) := by
  induction ops generalizing s with
  | nil => exact h
  | cons op ops ih => exact ih (calm_run h op)

theorem calm_box (h : Calm s) : s.boundingBox.1 = Box.fromPoints s.verts := by
  unfold boundingBox
  cases hb : s.bbox with
  | some b => exact (h.bbox b hb).symm
  | none => simp only; cases hf : Box.fromPoints s.verts <;> rfl

theorem contains_calm (h : Calm s) (h4 : 4 ≤ s.verts.length)
    (hs : s.verts.length = 4 ∨ s.centroid ≠ some none) (p : PyPoint K) :
    (s.containsPoint eps p).1 = match s.yPolylines with
      | some pls => pnpYMonotone pls p.toVec
      | none => .ok (winding s.verts p.toVec != 0) := by
  have hne : s.verts ≠ [] := by rintro he; rw [he] at h4; simp at h4
  have h3 : s.verts.length ≠ 3 := by omega
  have tail : (match s.yPolylines with
      | some pls => (pnpYMonotone pls p.toVec, s)
      | none =>
        if s.verts.length = 4 then (Except.ok (pnpWinding s.verts p.toVec), s)
        else match s.boundingBox with
          | (.error e, s) => (.error e, s)
          | (.ok b, s) =>
            if b.containsPoint p.toVec then (.ok (pnpWinding s.verts p.toVec), s)
            else (.ok false, s)).1 = match s.yPolylines with
      | some pls => pnpYMonotone pls p.toVec
      | none => .ok (winding s.verts p.toVec != 0) := by
    cases hy : s.yPolylines with
    | some pls => rfl
    | none =>
      simp only
      by_cases e4 : s.verts.length = 4
      · simp only [e4, if_true, pnpWinding_eq hne]
      · simp only [e4, if_false]
        have b1 := calm_box h
        have b3 := boundingBox_verts s
        obtain ⟨b, hb, -⟩ := fromPoints_tight hne
        rw [hb] at b1
        rcases hbb : s.boundingBox with ⟨r, s'⟩
        rw [hbb] at b1 b3
        simp only at b1 b3
        subst b1
        simp only [b3]
        rw [← box_winding hne hb p.toVec]
        split <;> rfl
  unfold containsPoint
  simp only [h3, if_false]
  cases hc : s.centroid with
  | none => exact tail
  | some c =>
    by_cases h5 : s.verts.length > 4
    · cases c with
      | none => rcases hs with hs | hs; exacts [absurd hs (by omega), absurd hc hs]
      | some c =>
        simp only [h5, if_true, h.minR2, h.maxR2]
        exact tail
    · simp only [h5, if_false]
      exact tail

theorem contains_calm_winding (h : Calm s) (h4 : 4 ≤ s.verts.length)
    (hs : s.verts.length = 4 ∨ s.centroid ≠ some none)
    (hcv : cv s.verts = true → Convex s.verts ∧ (Flat s.verts ∨ ¬ Swapped s.verts)) (p : PyPoint K) :
    (s.containsPoint eps p).1 = .ok (winding s.verts p.toVec != 0) := by
  have hne : s.verts ≠ [] := by rintro he; rw [he] at h4; simp at h4
  rw [contains_calm h h4 hs p]
  rcases h.ypl with hy | ⟨hy, hcvt⟩
  · simp only [hy]
  · simp only [hy]
    obtain ⟨hc, hor⟩ := hcv hcvt
    by_cases hf : Flat s.verts
    · obtain ⟨b, hb, -, hb2⟩ := ymono_winding hne hc p.toVec
      rw [hb, hb2 (Or.inl hf)]
    · exact (ymono_exact hne hc hf).1 (hor.resolve_left hf) p.toVec

theorem after_verts_length (s : Polygon K) (ops : List (PolyOp K)) : (s.after eps ops).verts.length = s.verts.length := by
  induction ops generalizing s with
  | nil => rfl
  | cons op ops ih =>
    show ((op.run eps s).after eps ops).verts.length = _
    rw [ih]
    cases op with
    | setItem i v =>
      unfold PolyOp.run setItem
      simp only
      cases hp : pySet s.verts i v.copy with
      | error e => rfl
      | ok vs =>
        simp only [pySet] at hp
        split at hp
        · injection hp with hp
          subst hp
          simp [clearCached, cleared]
        · cases hp
    | imul T => simp only [PolyOp.run, imul_eq_cleared]; simp [cleared, Affine.applyPts]
    | isConvex => simp only [PolyOp.run, isConvex_verts]
    | isSimple => simp only [PolyOp.run, isSimple_verts]
    | centroid => simp only [PolyOp.run, getCentroid_verts]
    | boundingBox => simp only [PolyOp.run, boundingBox_verts]
    | contains p => simp only [PolyOp.run, containsPoint_verts]
    | tangents p =>
      rcases tangents_state s p with e | e <;> simp only [PolyOp.run, e]
      rw [isConvex_verts]

/-- The attributes of a polygon declared not convex, as long as it is not changed; `b` is the value of `is_simple`. -/
structure DeclaredFalse (vs : List (Vec2 K)) (b : Bool) (s : Polygon K) : Prop where
  verts : s.verts = vs
  convex : s.convex = some false
  ypl : s.yPolylines = none
  simple : s.simple = some b ∨ (s.simple = none ∧ checkSimple vs = b)
  centroid : ∀ c, s.centroid = some c → (c = none ↔ b = false)

theorem df_isSimple {vs : List (Vec2 K)} {b : Bool} (h : DeclaredFalse vs b s) :
    s.isSimple.1 = b ∧ DeclaredFalse vs b s.isSimple.2 ∧ s.isSimple.2.centroid = s.centroid := by
  rcases h.simple with hs | ⟨hs, hb⟩
  · rw [isSimple_known hs]; exact ⟨rfl, h, rfl⟩
  · rw [isSimple_check hs h.convex]
    exact ⟨by rw [h.verts]; exact hb, ⟨h.verts, h.convex, h.ypl, .inl (by simp only [h.verts, hb]), h.centroid⟩, rfl⟩

theorem df_boundingBox {vs : List (Vec2 K)} {b : Bool} (h : DeclaredFalse vs b s) : DeclaredFalse vs b s.boundingBox.2 := by
  unfold boundingBox
  split
  · exact h
  · split
    · exact h
    · exact ⟨h.verts, h.convex, h.ypl, h.simple, h.centroid⟩

theorem df_run {vs : List (Vec2 K)} {b : Bool} (h : DeclaredFalse vs b s) (op : PolyOp K) (hr : op.isRead = true) :
    DeclaredFalse vs b (op.run eps s) ∧
    ((op.run eps s).centroid = some none ↔ s.centroid = some none ∨ (op = .centroid ∧ b = false)) := by
  cases op with
  | setItem i v => simp [PolyOp.isRead] at hr
  | imul T => simp [PolyOp.isRead] at hr
  | isConvex => simp only [PolyOp.run, isConvex_known h.convex]; exact ⟨h, by simp⟩
  | isSimple => simp only [PolyOp.run]; exact ⟨(df_isSimple h).2.1, by simp [(df_isSimple h).2.2]⟩
  | centroid =>
    simp only [PolyOp.run, true_and]
    unfold getCentroid
    cases hc : s.centroid with
    | some c =>
      simp only
      have := h.centroid c hc
      exact ⟨h, by rw [hc]; simp [this]⟩
    | none =>
      simp only
      obtain ⟨i1, i2, i3⟩ := df_isSimple h
      rw [i1]
      cases b with
      | true =>
        simp only [if_true]
        split
        · exact ⟨i2, by simp [i3, hc]⟩
        · exact ⟨⟨i2.verts, i2.convex, i2.ypl, i2.simple, by simp⟩, by simp⟩
      | false =>
        simp only [Bool.false_eq_true, if_false]
        exact ⟨⟨i2.verts, i2.convex, i2.ypl, i2.simple, by simp⟩, by simp⟩
  | boundingBox => simp only [PolyOp.run]; exact ⟨df_boundingBox h, by simp [boundingBox_centroid]⟩
  | contains p =>
    simp only [PolyOp.run]
    rcases contains_state eps s p with e | e | ⟨c, e⟩ <;> rw [e]
    · exact ⟨h, by simp⟩
    · exact ⟨df_boundingBox h, by simp [boundingBox_centroid]⟩
    · exact ⟨⟨h.verts, h.convex, h.ypl, h.simple, h.centroid⟩, by simp⟩
  | tangents p =>
    rcases tangents_state s p with e | e <;> simp only [PolyOp.run, e]
    · exact ⟨h, by simp⟩
    · rw [isConvex_known h.convex]; exact ⟨h, by simp⟩

theorem df_after {vs : List (Vec2 K)} {b : Bool} (h : DeclaredFalse vs b s) (reads : List (PolyOp K))
    (hr : ∀ op ∈ reads, op.isRead = true) :
    DeclaredFalse vs b (s.after eps reads) ∧
    ((s.after eps reads).centroid = some none ↔ s.centroid = some none ∨ (.centroid ∈ reads ∧ b = false)) := by
  induction reads generalizing s with
  | nil => exact ⟨h, by simp [Polygon.after]⟩
  | cons op reads ih =>
    obtain ⟨h1, h2⟩ := df_run (eps := eps) h op (hr op (by simp))
    obtain ⟨h3, h4⟩ := ih h1 fun o ho => hr o (by simp [ho])
    refine ⟨h3, ?_⟩
    show ((op.run eps s).after eps reads).centroid = some none ↔ _
    rw [h4, h2]
    simp only [List.mem_cons]
    constructor
    · rintro ((h | ⟨h, hb⟩) | ⟨h, hb⟩)
      exacts [.inl h, .inr ⟨.inl h.symm, hb⟩, .inr ⟨.inr h, hb⟩]
    · rintro (h | ⟨h | h, hb⟩)
      exacts [.inl (.inl h), .inl (.inr ⟨h.symm, hb⟩), .inr ⟨h, hb⟩]

end Polygon
open Polygon
variable {K : Type} [Field K] [LinearOrder K] [IsStrictOrderedRing K]

/-- **C63** a polygon with four or more vertices that is declared not convex, rightly or not, keeps answering
`contains_point` by the winding rule (so unlike for a polygon known to be convex the answers never depend on the order of
the vertices), whatever is read before. Only when it has more than four vertices, is not simple (or declared not to be) and
`centroid` has been read does it raise, and then TypeError for every point. -/
theorem C63_contains_false (eps : K) (vs : List (Vec2 K)) (m : Option Bool) (s : Polygon K)
    (h : Polygon.new vs (some false) m = .ok s) (h4 : 4 ≤ vs.length) (reads : List (PolyOp K))
    (hr : ∀ op ∈ reads, op.isRead = true) (p : PyPoint K) :
    let raises := 4 < vs.length ∧ PolyOp.centroid ∈ reads ∧ s.isSimple.1 = false
    (¬ raises → ((s.after eps reads).containsPoint eps p).1 = .ok (winding vs p.toVec != 0)) ∧
    (raises → ((s.after eps reads).containsPoint eps p).1 = .error .typeError) := by
  intro raises
  rw [new_eq vs (some false) m (by omega)] at h
  injection h with h
  have hd : DeclaredFalse vs (m.getD (checkSimple vs)) s := by
    rw [← h]
    refine ⟨rfl, by simp [show 3 < vs.length by omega], by simp, ?_, by simp [cleared]⟩
    simp only [show 3 < vs.length by omega, if_true]
    cases m <;> simp
  have hcalm : Calm s := by
    rw [← h]
    exact ⟨by simp [cleared], rfl, rfl, .inl (by simp)⟩
  have hc0 : s.centroid = none := by rw [← h]; rfl
  obtain ⟨a1, a2⟩ := df_after (eps := eps) hd reads hr
  have a3 := calm_after (eps := eps) hcalm reads
  have hra : raises ↔ 4 < vs.length ∧ PolyOp.centroid ∈ reads ∧ m.getD (checkSimple vs) = false := by
    show _ ∧ _ ∧ s.isSimple.1 = false ↔ _
    rw [(df_isSimple hd).1]
  rw [hra]
  clear hra raises
  rw [hc0] at a2
  simp only [reduceCtorEq, false_or] at a2
  generalize s.after eps reads = t at *
  have hl : 4 ≤ t.verts.length := by rw [a1.verts]; exact h4
  refine ⟨fun hc => ?_, fun hc => ?_⟩
  rotate_left
  · exact contains_none (by rw [a1.verts]; exact hc.1) (a2.mpr ⟨hc.2.1, hc.2.2⟩) p
  · rw [contains_calm a3 hl, a1.ypl, a1.verts]
    by_cases h5 : 4 < vs.length
    · right
      intro hcc
      exact hc ⟨h5, a2.mp hcc⟩
    · left; rw [a1.verts]; omega

/-- **C63** correct declarations do not change `contains_point` either: after any history, assignments and in-place
transforms included, it answers by the winding rule on the current vertices, under the provisos of `C52_changes_partial` (which
polygons without declared flags need as well). -/
theorem C63_contains_correct (eps : K) (vs : List (Vec2 K)) (c m : Option Bool) (s0 : Polygon K)
    (h : Polygon.new vs c m = .ok s0) (h4 : 4 ≤ vs.length)
    (hc : c = none ∨ c = some (Polygon.fromPoints vs).isConvex.1)
    (hm : m = none ∨ m = some (Polygon.fromPoints vs).isSimple.1) (ops : List (PolyOp K))
    (hs : vs.length = 4 ∨ (s0.after eps ops).isSimple.1 = true)
    (hcv : (s0.after eps ops).isConvex.1 = true → Convex (s0.after eps ops).verts ∧
      (Flat (s0.after eps ops).verts ∨ ¬ Swapped (s0.after eps ops).verts)) (p : PyPoint K) :
    ((s0.after eps ops).containsPoint eps p).1 = .ok (winding (s0.after eps ops).verts p.toVec != 0) := by
  have hA := agree_correct h hc hm
  have hv := (new_verts h).1
  have hcalm : Calm s0 := by
    have e := h
    rw [new_eq vs c m (by omega)] at e
    injection e with e
    rw [← e]
    refine ⟨by simp [cleared], rfl, rfl, ?_⟩
    simp only
    split
    · rename_i hct
      refine .inr ⟨rfl, ?_⟩
      rcases hc with hc | hc
      · rw [hc] at hct; simp at hct
      · rw [hct.2] at hc
        injection hc with hc
        have hf : Agree (fromPoints vs) := agree_cleared _ _
        rw [(agree_isConvex hf).1] at hc
        simp only [convexVal, fromPoints, cleared, show 3 < vs.length by omega, if_true] at hc
        exact hc.symm
    · exact .inl rfl
  have hA' := agree_after (eps := eps) hA ops
  have hC' := calm_after (eps := eps) hcalm ops
  have hl := after_verts_length (eps := eps) s0 ops
  rw [hv] at hl
  rw [← hl] at h4 hs
  generalize s0.after eps ops = t at *
  rw [(agree_isSimple hA').1] at hs
  rw [(agree_isConvex hA').1, convexVal, if_pos (by omega)] at hcv
  refine contains_calm_winding hC' h4 (hs.imp_right fun hs hcc => ?_) hcv p
  have := hA'.centroid _ hcc
  rw [centroidVal, if_pos hs] at this
  rcases hcc : computeCentroid t.verts with e | c <;> rw [hcc] at this <;> cases this

/-- The parallelogram of `C51_violated`, wrongly declared not convex: `contains_point` of its centre is True also after
`is_convex` has been read; and a self-intersecting pentagon declared not convex raises once `centroid` has been read. -/
example : (∃ s : Polygon ℚ, Polygon.new [⟨0, 0⟩, ⟨4, 1⟩, ⟨5, 5⟩, (⟨1, 4⟩ : Vec2 ℚ)] (some false) = .ok s ∧
      ((s.after (1/100000) [.isConvex, .centroid]).containsPoint (1/100000) (.vec ⟨5/2, 5/2⟩)).1 = .ok true) ∧
    ∃ s : Polygon ℚ, Polygon.new [⟨0, 0⟩, ⟨4, 4⟩, ⟨0, 4⟩, ⟨4, 0⟩, (⟨5, 2⟩ : Vec2 ℚ)] (some false) = .ok s ∧
      s.isSimple.1 = false ∧
      ((s.after (1/100000) [.centroid]).containsPoint (1/100000) (.vec ⟨2, 7/2⟩)).1 = .error .typeError :=
  ⟨⟨_, rfl, by decide +kernel⟩, _, rfl, by decide +kernel, by decide +kernel⟩

end Planar
