import Verif.Props.NoRaise
import Verif.Props.RectFloats
/- What reads leave unchanged in a polygon object, whatever the arithmetic. -/
set_option linter.unusedSectionVars false
namespace Planar
open Polygon

variable {K : Type} [Add K] [Sub K] [Mul K] [Div K] [Neg K] [Zero K] [One K] [BEq K] [LT K] [LE K]
  [DecidableLT K] [DecidableLE K]

/-- The object has the vertices `vs`, the stored centre and radii given, and its other stored values belong to the vertices. -/
structure Kept (vs : List (Vec2 K)) (c : Option (Option (Vec2 K))) (a b : Option K) (s : Polygon K) : Prop where
  verts : s.verts = vs
  cen : s.centroid = c
  minR2 : s.minR2 = a
  maxR2 : s.maxR2 = b
  ypl : ∀ pls, s.yPolylines = some pls → pls = splitYPolylines vs
  bbox : ∀ x, s.bbox = some x → Box.fromPoints vs = .ok x

namespace Kept
variable {vs : List (Vec2 K)} {c : Option (Option (Vec2 K))} {a b : Option K} {s : Polygon K}

theorem of_eq {t : Polygon K} (h : Kept vs c a b s) (h1 : t.verts = s.verts) (h2 : t.centroid = s.centroid) (h3 : t.minR2 = s.minR2)
    (h4 : t.maxR2 = s.maxR2) (h5 : t.yPolylines = s.yPolylines) (h6 : t.bbox = s.bbox) : Kept vs c a b t :=
  ⟨h1 ▸ h.verts, h2 ▸ h.cen, h3 ▸ h.minR2, h4 ▸ h.maxR2, h5 ▸ h.ypl, h6 ▸ h.bbox⟩

theorem fromPoints (vs : List (Vec2 K)) : Kept vs none none none (Polygon.fromPoints vs) := by
  constructor <;> first | rfl | (intro x h; simp [Polygon.fromPoints, cleared] at h)

theorem classify (h : Kept vs c a b s) : Kept vs c a b s.classify := by
  unfold Polygon.classify
  simp only
  generalize (if (classifyRun s.verts).dirChanges ≤ 2 then (classifyRun s.verts).convex else false) = x
  generalize ((classifyRun s.verts).count == 0 || (classifyRun s.verts).angleSign == 0) = d
  split
  · exact ⟨h.verts, h.cen, h.minR2, h.maxR2, fun pls e => by simp only [Option.some.injEq] at e; rw [← e, h.verts], h.bbox⟩
  · exact of_eq h rfl rfl rfl rfl rfl rfl

theorem isConvex (h : Kept vs c a b s) : Kept vs c a b s.isConvex.2 := by
  unfold Polygon.isConvex
  split
  · exact h
  · exact h.classify

theorem isSimple (h : Kept vs c a b s) : Kept vs c a b s.isSimple.2 := by
  unfold Polygon.isSimple
  split
  · exact h
  · simp only
    have : ∀ q : Polygon K, Kept vs c a b q → Kept vs c a b (match q.simple with
        | some b => (b, q)
        | none => (checkSimple q.verts, { q with simple := some (checkSimple q.verts) }) : Bool × Polygon K).2 := by
      intro q hq; split
      · exact hq
      · exact of_eq hq rfl rfl rfl rfl rfl rfl
    refine this _ ?_
    split
    · exact h.classify
    · exact h

theorem boundingBox (h : Kept vs c a b s) : Kept vs c a b s.boundingBox.2 := by
  unfold Polygon.boundingBox
  split
  · exact h
  · split
    · exact h
    · rename_i x hx
      exact ⟨h.verts, h.cen, h.minR2, h.maxR2, h.ypl, fun y e => by simp only [Option.some.injEq] at e; rw [← e, ← h.verts, hx]⟩

theorem containsPoint (h : Kept vs c a b s) (eps : K) (p : PyPoint K) : Kept vs c a b (s.containsPoint eps p).2 := by
  unfold Polygon.containsPoint
  simp only
  split
  · unfold pnpTriangle
    split
    · exact h
    · split
      · exact h
      · exact h
      · exact of_eq h rfl rfl rfl rfl rfl rfl
  · split
    · exact h
    · exact h
    · split
      · exact h
      · split
        · exact h
        · have hb := h.boundingBox
          split
          · rename_i heq; rw [heq] at hb; exact hb
          · rename_i heq; rw [heq] at hb
            split <;> exact hb

theorem tangentsToPoint (h : Kept vs c a b s) (p : Vec2 K) : Kept vs c a b (s.tangentsToPoint p).2 := by
  unfold Polygon.tangentsToPoint
  split
  · simp only
    split <;> exact h.isConvex
  · exact h

theorem after (h : Kept vs c a b s) (eps : K) (ops : List (PolyOp K)) (hops : ∀ op ∈ ops, PlainRead op) :
    Kept vs c a b (s.after eps ops) := by
  induction ops generalizing s with
  | nil => exact h
  | cons op ops ih =>
    have hop := hops op List.mem_cons_self
    refine ih (s := op.run eps s) ?_ (fun o ho => hops o (List.mem_cons_of_mem _ ho))
    cases op with
    | setItem i v => exact hop.elim
    | imul T => exact hop.elim
    | isConvex => exact h.isConvex
    | isSimple => exact h.isSimple
    | centroid => exact hop.elim
    | boundingBox => exact h.boundingBox
    | contains p => exact h.containsPoint eps p
    | tangents p => exact h.tangentsToPoint p

theorem new (hv : vs.map Vec2.copy = vs) {x y : Option Bool} (h : Polygon.new vs x y = .ok s) : Kept vs none none none s := by
  unfold Polygon.new at h
  simp only [hv] at h
  split at h
  · simp at h
  · simp only [Except.ok.injEq] at h
    have fin : ∀ (y : Option Bool) (q : Polygon K), Kept vs none none none q → Kept vs none none none (match y, q.simple with
        | some b, none => { q with simple := some b } | _, _ => q) := by
      intro y q hq; split
      · exact of_eq hq rfl rfl rfl rfl rfl rfl
      · exact hq
    rw [← h]
    refine fin y _ ?_
    have h0 := Kept.fromPoints vs
    split
    · split
      · exact ⟨rfl, rfl, rfl, rfl, fun pls e => by simp only [Option.some.injEq] at e; exact e.symm, h0.bbox⟩
      · exact of_eq h0 rfl rfl rfl rfl rfl rfl
    · exact h0

/-- The answers of `contains_point` for polygons with more than three vertices. -/
theorem contains_which (h : Kept vs c a b s) (h4 : 4 ≤ vs.length) (eps : K) (p : PyPoint K)
    (hrad : c = none ∨ ∃ o, c = some (some o) ∧ (4 < vs.length → (∀ r, a = some r → ¬ (o - p.toVec).length2 < r) ∧
      ∀ r, b = some r → ¬ (o - p.toVec).length2 > r)) :
    (s.yPolylines ≠ none ∧ (s.containsPoint eps p).1 = pnpYMonotone (splitYPolylines vs) p.toVec) ∨
    (s.containsPoint eps p).1 = ((Polygon.fromPoints vs).containsPoint eps p).1 := by
  have h3 : ¬ vs.length = 3 := by omega
  -- without the shortcuts
  have tail : ∀ t : Polygon K, Kept vs c a b t →
      (match t.yPolylines with
      | some pls => (pnpYMonotone pls p.toVec, t)
      | none =>
        if vs.length = 4 then (.ok (pnpWinding vs p.toVec), t)
        else match t.boundingBox with
          | (.error e, t) => (.error e, t)
          | (.ok b, t) =>
            if b.containsPoint p.toVec then (.ok (pnpWinding t.verts p.toVec), t)
            else (.ok false, t)).1 = pnpYMonotone (splitYPolylines vs) p.toVec ∧ t.yPolylines ≠ none ∨
      (match t.yPolylines with
      | some pls => (pnpYMonotone pls p.toVec, t)
      | none =>
        if vs.length = 4 then (.ok (pnpWinding vs p.toVec), t)
        else match t.boundingBox with
          | (.error e, t) => (.error e, t)
          | (.ok b, t) =>
            if b.containsPoint p.toVec then (.ok (pnpWinding t.verts p.toVec), t)
            else (.ok false, t)).1 = 
        if vs.length = 4 then .ok (pnpWinding vs p.toVec) else
          match Box.fromPoints vs with
          | .error e => .error e
          | .ok b => if b.containsPoint p.toVec then .ok (pnpWinding vs p.toVec) else .ok false := by
    intro t ht
    cases hy : t.yPolylines with
    | some pls => left; rw [ht.ypl pls hy]; exact ⟨rfl, by simp⟩
    | none =>
      right
      simp only
      split
      · rfl
      · have hb : t.boundingBox.1 = Box.fromPoints vs := by
          unfold Polygon.boundingBox
          cases hx : t.bbox with
          | some x => simp only; exact (ht.bbox x hx).symm
          | none =>
            simp only
            rw [ht.verts]
            cases Box.fromPoints vs <;> rfl
        have hb2 := ht.boundingBox.verts
        rcases hx : t.boundingBox with ⟨r1, t1⟩
        rw [hx] at hb hb2
        simp only at hb hb2
        rw [← hb]
        cases r1 with
        | error e => rfl
        | ok x => simp only; split <;> simp only [hb2]
  have fresh : ((Polygon.fromPoints vs).containsPoint eps p).1 = 
        if vs.length = 4 then .ok (pnpWinding vs p.toVec) else
          match Box.fromPoints vs with
          | .error e => .error e
          | .ok b => if b.containsPoint p.toVec then .ok (pnpWinding vs p.toVec) else .ok false := by
    have hy : (Polygon.fromPoints vs).yPolylines = none := rfl
    have hv : (Polygon.fromPoints vs).verts = vs := rfl
    have hx : (Polygon.fromPoints vs).bbox = none := rfl
    have hc : (Polygon.fromPoints vs).centroid = none := rfl
    unfold Polygon.containsPoint
    simp only [hv, h3, if_false, hc, hy]
    split
    · rfl
    · unfold Polygon.boundingBox
      simp only [hx, hv]
      cases Box.fromPoints vs with
      | error e => rfl
      | ok x => simp only [hv]; split <;> rfl
  rw [fresh, and_comm]
  unfold Polygon.containsPoint
  simp only [h.verts, h3, if_false, h.cen, h.minR2, h.maxR2]
  rcases hrad with rfl | ⟨o, rfl, hr⟩
  · exact tail s h
  · by_cases hl : 4 < vs.length
    · obtain ⟨r1, r2⟩ := hr hl
      have t0 := tail s h
      cases a with
      | none =>
        cases b with
        | none => simp only [gt_iff_lt, hl, if_true, Bool.false_eq_true, if_false]; exact t0
        | some r' =>
          have e2 := r2 r' rfl
          simp only [gt_iff_lt] at e2
          simp only [gt_iff_lt, hl, if_true, e2, decide_false, Bool.false_eq_true, if_false]; exact t0
      | some r =>
        have e1 := r1 r rfl
        cases b with
        | none => simp only [gt_iff_lt, hl, if_true, e1, decide_false, Bool.false_eq_true, if_false]; exact t0
        | some r' =>
          have e2 := r2 r' rfl
          simp only [gt_iff_lt] at e2
          simp only [gt_iff_lt, hl, if_true, e1, e2, decide_false, Bool.false_eq_true, if_false]; exact t0
    · simp only [gt_iff_lt, hl, if_false]
      exact tail s h

theorem contains (h : Kept vs c a b s) (h4 : 4 ≤ vs.length) (eps : K) (p : PyPoint K)
    (hrad : c = none ∨ ∃ o, c = some (some o) ∧ (4 < vs.length → (∀ r, a = some r → ¬ (o - p.toVec).length2 < r) ∧
      ∀ r, b = some r → ¬ (o - p.toVec).length2 > r)) :
    (s.containsPoint eps p).1 = pnpYMonotone (splitYPolylines vs) p.toVec ∨
    (s.containsPoint eps p).1 = ((Polygon.fromPoints vs).containsPoint eps p).1 :=
  (h.contains_which h4 eps p hrad).imp_left And.right

/-- Reads of a polygon known not to be convex do not split it. -/
theorem unsplit_after {s : Polygon K} (h : s.convex = some false ∧ s.yPolylines = none) (eps : K) (ops : List (PolyOp K))
    (hops : ∀ op ∈ ops, PlainRead op) : (s.after eps ops).convex = some false ∧ (s.after eps ops).yPolylines = none := by
  have hcv : ∀ s : Polygon K, s.convex = some false → s.isConvex.2 = s := by
    intro s hs; unfold Polygon.isConvex; simp only [hs]
  have bb : ∀ s : Polygon K, (s.convex = some false ∧ s.yPolylines = none) →
      (s.boundingBox.2.convex = some false ∧ s.boundingBox.2.yPolylines = none) := by
    intro s h
    unfold Polygon.boundingBox
    split
    · exact h
    · split <;> exact h
  induction ops generalizing s with
  | nil => exact h
  | cons op ops ih =>
    have hop := hops op List.mem_cons_self
    refine ih (s := op.run eps s) ?_ (fun o ho => hops o (List.mem_cons_of_mem _ ho))
    cases op with
    | setItem i v => exact hop.elim
    | imul T => exact hop.elim
    | isConvex => show s.isConvex.2.convex = _ ∧ s.isConvex.2.yPolylines = _; rw [hcv s h.1]; exact h
    | isSimple =>
      show s.isSimple.2.convex = _ ∧ s.isSimple.2.yPolylines = _
      unfold Polygon.isSimple
      split
      · exact h
      · simp only [h.1, reduceCtorEq, if_false]
        split
        · exact h
        · exact ⟨rfl, h.2⟩
    | centroid => exact hop.elim
    | boundingBox => exact bb s h
    | contains p =>
      show (s.containsPoint eps p).2.convex = _ ∧ (s.containsPoint eps p).2.yPolylines = _
      unfold Polygon.containsPoint
      simp only
      split
      · unfold pnpTriangle
        split
        · exact h
        · split <;> exact h
      · split
        · exact h
        · exact h
        · split
          · exact h
          · split
            · exact h
            · have hb := bb s h
              split
              · rename_i heq; rw [heq] at hb; exact hb
              · rename_i heq; rw [heq] at hb
                split <;> exact hb
    | tangents p =>
      show (s.tangentsToPoint p).2.convex = _ ∧ (s.tangentsToPoint p).2.yPolylines = _
      unfold Polygon.tangentsToPoint
      split
      · simp only [hcv s h.1]
        split <;> exact h
      · exact h

/-- The answers of `contains_point` when a radius decides. -/
theorem contains_shortcut {o : Vec2 K} (h : Kept vs (some (some o)) a b s) (h5 : 4 < vs.length) (eps : K) (p : PyPoint K) :
    (∀ r, a = some r → (o - p.toVec).length2 < r → (s.containsPoint eps p).1 = .ok true) ∧
    ((∀ r, a = some r → ¬ (o - p.toVec).length2 < r) → ∀ r, b = some r → (o - p.toVec).length2 > r →
      (s.containsPoint eps p).1 = .ok false) := by
  have h3 : ¬ vs.length = 3 := by omega
  unfold Polygon.containsPoint
  simp only [h.verts, h3, if_false, h.cen, h.minR2, h.maxR2, h5, if_true]
  constructor
  · rintro r rfl hd
    simp only [hd, decide_true, if_true]
  · rintro hn r rfl hd
    simp only [gt_iff_lt] at hd
    cases a with
    | none => simp only [gt_iff_lt, hd, Bool.false_eq_true, if_false, decide_true, if_true]
    | some r' => simp only [gt_iff_lt, hd, hn r' rfl, decide_false, Bool.false_eq_true, if_false, decide_true, if_true]

end Kept
end Planar
