import Verif.Lemmas.Rounded
import Verif.Props.PolyState
/- Properties C63 (declared flags) and C64 (the `..._known` properties). -/
set_option linter.unusedSectionVars false
namespace Planar
open Spec
namespace Polygon
variable {K : Type} [LinearOrder K] [Add K] [Sub K] [Mul K] [Div K] [Neg K] [Zero K] [One K] [RoundedArith K] {eps : K} {s : Polygon K}

/-- What is stored agrees with the current vertices. (Weaker than `Inv`: flags may have been declared.) -/
structure Agree (s : Polygon K) : Prop where
  convex : ∀ b, s.convex = some b → b = convexVal s.verts
  simple : ∀ b, s.simple = some b → b = simpleVal s.verts
  simpleT : s.convex = some true → s.simple = some true
  short : s.verts.length ≤ 3 → s.convex = some true
  centroid : ∀ c, s.centroid = some c → centroidVal s.verts = .ok c
  bbox : ∀ b, s.bbox = some b → Box.fromPoints s.verts = .ok b

theorem agree_cleared (vs : List (Vec2 K)) (t : Option (TriClosure K)) : Agree (cleared vs t) := by
  by_cases h3 : 3 < vs.length
  · have : vs.length > 3 := h3
    constructor <;> simp [cleared, this]
  · have : ¬ vs.length > 3 := h3
    constructor <;> simp [cleared, this, convexVal, simpleVal]

theorem agree_classify (h : Agree s) (hn : s.convex = none) : Agree s.classify := by
  have h3 : 3 < s.verts.length := by
    by_contra h'
    have := h.short (by omega)
    rw [hn] at this; cases this
  rw [classify_eq]
  constructor
  · intro b hb; simp only [Option.some.injEq] at hb; simp [convexVal, h3, hb]
  · intro b hb
    simp only at hb
    split at hb
    · rename_i hc; simp only [Option.some.injEq] at hb; simp [simpleVal, h3, hc, hb.symm]
    · cases hb
  · intro hb; simp only [Option.some.injEq] at hb; simp [hb]
  · intro h'; simp only at h'; omega
  · exact h.centroid
  · exact h.bbox

theorem agree_isConvex (h : Agree s) : s.isConvex.1 = convexVal s.verts ∧ Agree s.isConvex.2 ∧
    s.isConvex.2.verts = s.verts := by
  refine ⟨?_, ?_, isConvex_verts s⟩
  · cases hc : s.convex with
    | some b => rw [isConvex_known hc]; exact h.convex b hc
    | none =>
      have h' := agree_classify h hc
      rw [isConvex_unknown hc]
      have e : s.classify.convex = some (cv s.verts) := by rw [classify_eq]
      have := h'.convex _ e
      rw [classify_verts] at this
      simp [e, this]
  · cases hc : s.convex with
    | some b => rw [isConvex_known hc]; exact h
    | none => rw [isConvex_unknown hc]; exact agree_classify h hc

theorem agree_isSimple (h : Agree s) : s.isSimple.1 = simpleVal s.verts ∧ Agree s.isSimple.2 ∧
    s.isSimple.2.verts = s.verts := by
  have fin : ∀ t : Polygon K, Agree t → t.simple = none → ∀ b, t.convex = some b →
      t.isSimple.1 = simpleVal t.verts ∧ Agree t.isSimple.2 := by
    intro t ht hs b hb
    rw [isSimple_check hs hb]
    have hbf : b = false := by
      cases b with
      | false => rfl
      | true => have := ht.simpleT hb; rw [hs] at this; cases this
    subst hbf
    have h3 : 3 < t.verts.length := by
      by_contra h'
      have := ht.short (by omega)
      rw [hb] at this; cases this
    have hcv : cv t.verts = false := by
      have := ht.convex false hb
      simp only [convexVal, h3, if_true] at this; exact this.symm
    have e : checkSimple t.verts = simpleVal t.verts := by simp [simpleVal, h3, hcv]
    refine ⟨e, ?_⟩
    constructor
    · exact ht.convex
    · intro b hb'; simp only [Option.some.injEq] at hb'; rw [← hb']; exact e
    · intro hb'; simp only at hb'; rw [hb] at hb'; cases hb'
    · exact ht.short
    · exact ht.centroid
    · exact ht.bbox
  have key : s.isSimple.1 = simpleVal s.verts ∧ Agree s.isSimple.2 := by
    cases hs : s.simple with
    | some b => rw [isSimple_known hs]; exact ⟨h.simple b hs, h⟩
    | none =>
      cases hc : s.convex with
      | some b => exact fin s h hs b hc
      | none =>
        rw [isSimple_unknown hs hc]
        have h' := agree_classify h hc
        cases hs' : s.classify.simple with
        | some b =>
          rw [isSimple_known hs']
          have := h'.simple b hs'
          rw [classify_verts] at this
          exact ⟨this, h'⟩
        | none =>
          have := fin _ h' hs' (cv s.verts) (by rw [classify_eq])
          rw [classify_verts] at this
          exact this
  exact ⟨key.1, key.2, isSimple_verts s⟩

theorem agree_boundingBox (h : Agree s) : s.boundingBox.1 = Box.fromPoints s.verts ∧ Agree s.boundingBox.2 := by
  unfold boundingBox
  cases hb : s.bbox with
  | some b => exact ⟨(h.bbox b hb).symm, h⟩
  | none =>
    simp only
    cases hf : Box.fromPoints s.verts with
    | error e => exact ⟨rfl, h⟩
    | ok b =>
      refine ⟨rfl, h.convex, h.simple, h.simpleT, h.short, h.centroid, ?_⟩
      intro b' hb'
      simp only [Option.some.injEq] at hb'
      subst hb'
      exact hf

theorem agree_getCentroid (h : Agree s) : s.getCentroid.1 = centroidVal s.verts ∧ Agree s.getCentroid.2 := by
  unfold getCentroid
  cases hc : s.centroid with
  | some c => exact ⟨(h.centroid c hc).symm, h⟩
  | none =>
    simp only
    obtain ⟨i1, i2, i3⟩ := agree_isSimple h
    have fin : ∀ c, centroidVal s.verts = .ok c → Agree { s.isSimple.2 with centroid := some c } := by
      intro c hv
      refine ⟨i2.convex, i2.simple, i2.simpleT, i2.short, ?_, i2.bbox⟩
      intro c' hc'
      simp only [Option.some.injEq] at hc'
      subst hc'
      simp only [i3]; exact hv
    rw [i1]
    by_cases hsv : simpleVal s.verts = true
    · simp only [hsv, if_true, i3]
      cases hcc : computeCentroid s.verts with
      | error e => exact ⟨by simp [centroidVal, hsv, hcc, Except.map], i2⟩
      | ok c =>
        have hv : centroidVal s.verts = .ok (some c) := by simp [centroidVal, hsv, hcc, Except.map]
        exact ⟨hv.symm, by have := fin _ hv; simp only [i3] at this; exact this⟩
    · simp only [Bool.not_eq_true] at hsv
      have hv : centroidVal s.verts = .ok none := by simp [centroidVal, hsv]
      simp only [hsv, Bool.false_eq_true, if_false]
      exact ⟨hv.symm, fin _ hv⟩

/-- The attributes a query leaves alone. -/
theorem contains_flags (eps : K) (s : Polygon K) (p : PyPoint K) :
    (s.containsPoint eps p).2.convex = s.convex ∧ (s.containsPoint eps p).2.simple = s.simple ∧
    (s.containsPoint eps p).2.centroid = s.centroid ∧
    ((s.containsPoint eps p).2.bbox = s.bbox ∨ (s.containsPoint eps p).2.bbox = s.boundingBox.2.bbox) := by
  have hb : s.boundingBox.2.convex = s.convex ∧ s.boundingBox.2.simple = s.simple ∧
      s.boundingBox.2.centroid = s.centroid := by
    unfold boundingBox
    split
    · exact ⟨rfl, rfl, rfl⟩
    · split <;> exact ⟨rfl, rfl, rfl⟩
  unfold containsPoint
  simp only
  split
  · unfold pnpTriangle
    split
    · exact ⟨rfl, rfl, rfl, .inl rfl⟩
    · split <;> exact ⟨rfl, rfl, rfl, .inl rfl⟩
  · split
    · exact ⟨rfl, rfl, rfl, .inl rfl⟩
    · exact ⟨rfl, rfl, rfl, .inl rfl⟩
    · split
      · exact ⟨rfl, rfl, rfl, .inl rfl⟩
      · split
        · exact ⟨rfl, rfl, rfl, .inl rfl⟩
        · split
          · rename_i heq; rw [heq] at hb ⊢; exact ⟨hb.1, hb.2.1, hb.2.2, .inr rfl⟩
          · rename_i heq; rw [heq] at hb ⊢
            split <;> exact ⟨hb.1, hb.2.1, hb.2.2, .inr rfl⟩

theorem tangents_state (s : Polygon K) (p : Vec2 K) :
    (s.tangentsToPoint p).2 = s ∨ (s.tangentsToPoint p).2 = s.isConvex.2 := by
  unfold tangentsToPoint
  split
  · simp only
    split <;> exact .inr rfl
  · exact .inl rfl

theorem agree_run (h : Agree s) (op : PolyOp K) : Agree (op.run eps s) := by
  cases op with
  | setItem i v =>
    unfold PolyOp.run setItem
    simp only
    cases pySet s.verts i v.copy with
    | error e => exact h
    | ok vs => exact agree_cleared _ _
  | imul T => simp only [PolyOp.run, imul_eq_cleared]; exact agree_cleared _ _
  | isConvex => exact (agree_isConvex h).2.1
  | isSimple => exact (agree_isSimple h).2.1
  | centroid => exact (agree_getCentroid h).2
  | boundingBox => exact (agree_boundingBox h).2
  | contains p =>
    obtain ⟨a, b, c, d⟩ := contains_flags eps s p
    have hv := containsPoint_verts eps s p
    simp only [PolyOp.run]
    refine ⟨?_, ?_, ?_, ?_, ?_, ?_⟩ <;> simp only [a, b, c, hv]
    · exact h.convex
    · exact h.simple
    · exact h.simpleT
    · exact h.short
    · exact h.centroid
    · rcases d with d | d
      · rw [d]; exact h.bbox
      · rw [d]
        have := (agree_boundingBox h).2.bbox
        rwa [boundingBox_verts] at this
  | tangents p =>
    rcases tangents_state s p with e | e
    · simp only [PolyOp.run, e]; exact h
    · simp only [PolyOp.run, e]; exact (agree_isConvex h).2.1

theorem agree_after (h : Agree s) (ops : List (PolyOp K)) : Agree (s.after eps ops) := by
  induction ops generalizing s with
  | nil => exact h
  | cons op ops ih => exact ih (agree_run h op)

theorem Agree.fresh (h : Agree s) :
    let f := fromPoints s.verts
    s.isConvex.1 = f.isConvex.1 ∧ s.isSimple.1 = f.isSimple.1 ∧ s.getCentroid.1 = f.getCentroid.1 ∧
    s.boundingBox.1 = f.boundingBox.1 := by
  have hf : Agree (fromPoints s.verts) := agree_cleared _ _
  exact ⟨(agree_isConvex h).1.trans (agree_isConvex hf).1.symm, (agree_isSimple h).1.trans (agree_isSimple hf).1.symm,
    (agree_getCentroid h).1.trans (agree_getCentroid hf).1.symm,
    (agree_boundingBox h).1.trans (agree_boundingBox hf).1.symm⟩

theorem after_append (s : Polygon K) (a b : List (PolyOp K)) : s.after eps (a ++ b) = (s.after eps a).after eps b := by
  simp [Polygon.after, List.foldl_append]

end Polygon

open Polygon
variable {K : Type} [LinearOrder K] [Add K] [Sub K] [Mul K] [Div K] [Neg K] [Zero K] [One K] [RoundedArith K]

theorem agree_correct {vs : List (Vec2 K)} {c m : Option Bool} {s0 : Polygon K} (h : Polygon.new vs c m = .ok s0)
    (hc : c = none ∨ c = some (Polygon.fromPoints vs).isConvex.1)
    (hm : m = none ∨ m = some (Polygon.fromPoints vs).isSimple.1) : Agree s0 := by
  obtain ⟨hv, h3⟩ := new_verts h
  rw [new_eq vs c m h3] at h
  injection h with h
  have hf : Agree (fromPoints vs) := agree_cleared _ _
  have e1 : (fromPoints vs).isConvex.1 = convexVal vs := (agree_isConvex hf).1
  have e2 : (fromPoints vs).isSimple.1 = simpleVal vs := (agree_isSimple hf).1
  rw [e1] at hc
  rw [e2] at hm
  subst h
  by_cases hl : 3 < vs.length
  · have hst : convexVal vs = true → simpleVal vs = true := by
      simp only [convexVal, simpleVal, hl, if_true]; intro h'; simp [h']
    constructor
    · intro b hb
      simp only [hl, if_true] at hb
      rcases hc with hc | hc
      · rw [hc] at hb; cases hb
      · rw [hc] at hb; exact (Option.some.inj hb).symm
    · intro b hb
      simp only [hl, if_true] at hb
      change b = simpleVal vs
      split at hb
      · rename_i hct
        rcases hc with hc | hc
        · rw [hc] at hct; cases hct
        · rw [hc] at hct
          rw [← Option.some.inj hb, hst (Option.some.inj hct)]
      · rcases hm with hm | hm
        · rw [hm] at hb; cases hb
        · rw [hm] at hb; exact (Option.some.inj hb).symm
    · intro hb; simp only [hl, if_true] at hb ⊢; simp [hb]
    · intro h'; exact absurd hl (not_lt.mpr h')
    · intro c' hc'; simp [cleared] at hc'
    · intro c' hc'; simp [cleared] at hc'
  · constructor
    · intro b hb; simp only [hl, if_false, Option.some.injEq] at hb
      change b = convexVal vs; simp [convexVal, hl, hb.symm]
    · intro b hb; simp only [hl, if_false, Option.some.injEq] at hb
      change b = simpleVal vs; simp [simpleVal, hl, hb.symm]
    · intro _; simp [hl]
    · intro _; simp [hl]
    · intro c' hc'; simp [cleared] at hc'
    · intro c' hc'; simp [cleared] at hc'

/-- **C63** correct declarations change no answer: if each flag passed to the constructor is what the polygon would
report without it, then after any history every property has the value a polygon built from the current vertices without
flags reports. (`contains_point` is `C63_contains_correct`.) -/
theorem C63_correct (eps : K) (vs : List (Vec2 K)) (c m : Option Bool) (s0 : Polygon K)
    (h : Polygon.new vs c m = .ok s0)
    (hc : c = none ∨ c = some (Polygon.fromPoints vs).isConvex.1)
    (hm : m = none ∨ m = some (Polygon.fromPoints vs).isSimple.1) (ops : List (PolyOp K)) :
    let s := s0.after eps ops
    let f := Polygon.fromPoints s.verts
    s.isConvex.1 = f.isConvex.1 ∧ s.isSimple.1 = f.isSimple.1 ∧ s.getCentroid.1 = f.getCentroid.1 ∧
    s.boundingBox.1 = f.boundingBox.1 := by
  exact Agree.fresh (agree_after (agree_correct h hc hm) ops)

/-- Reads keep a declared `is_convex`, and then also what is stored for `is_simple`. -/
theorem reads_keep {eps : K} {s : Polygon K} {b m : Bool} (hc : s.convex = some b) (hs : s.simple = some m)
    (reads : List (PolyOp K)) (hr : ∀ op ∈ reads, op.isRead = true) :
    (s.after eps reads).convex = some b ∧ (s.after eps reads).simple = some m := by
  induction reads generalizing s with
  | nil => exact ⟨hc, hs⟩
  | cons op ops ih =>
    have hop := hr op (by simp)
    have hrest : ∀ o ∈ ops, o.isRead = true := fun o ho => hr o (by simp [ho])
    suffices h : (op.run eps s).convex = some b ∧ (op.run eps s).simple = some m from ih h.1 h.2 hrest
    cases op with
    | setItem i v => simp [PolyOp.isRead] at hop
    | imul T => simp [PolyOp.isRead] at hop
    | isConvex => simp only [PolyOp.run, isConvex_known hc]; exact ⟨hc, hs⟩
    | isSimple => simp only [PolyOp.run, isSimple_known hs]; exact ⟨hc, hs⟩
    | centroid =>
      simp only [PolyOp.run, getCentroid, isSimple_known hs]
      split
      · exact ⟨hc, hs⟩
      · split
        · split <;> exact ⟨hc, hs⟩
        · exact ⟨hc, hs⟩
    | boundingBox =>
      simp only [PolyOp.run, boundingBox]
      split
      · exact ⟨hc, hs⟩
      · split <;> exact ⟨hc, hs⟩
    | contains p => obtain ⟨e1, e2, -⟩ := contains_flags eps s p; exact ⟨e1.trans hc, e2.trans hs⟩
    | tangents p =>
      rcases tangents_state s p with e | e
      · simp only [PolyOp.run, e]; exact ⟨hc, hs⟩
      · simp only [PolyOp.run, e, isConvex_known hc]; exact ⟨hc, hs⟩

/-- **C63** declared flags are believed, right or wrong, until a vertex changes: with more than three vertices a declared
`is_convex` (with `is_simple` implied by `True` or declared too) is what both properties answer after any reads and
queries; for a triangle both are always True. -/
theorem C63_declared (eps : K) (vs : List (Vec2 K)) (c m : Option Bool) (s : Polygon K) (h : Polygon.new vs c m = .ok s)
    (reads : List (PolyOp K)) (hr : ∀ op ∈ reads, op.isRead = true) :
    let t := s.after eps reads
    (vs.length = 3 → t.isConvex.1 = true ∧ t.isSimple.1 = true) ∧
    (3 < vs.length → c = some true → t.isConvex.1 = true ∧ t.isSimple.1 = true) ∧
    (∀ b, 3 < vs.length → c = some false → m = some b → t.isConvex.1 = false ∧ t.isSimple.1 = b) := by
  intro t
  obtain ⟨hv, h3⟩ := new_verts h
  rw [new_eq vs c m h3] at h
  injection h with h
  have fin : ∀ b m', s.convex = some b → s.simple = some m' → t.isConvex.1 = b ∧ t.isSimple.1 = m' := by
    intro b m' h1 h2
    obtain ⟨e1, e2⟩ := reads_keep (eps := eps) h1 h2 reads hr
    exact ⟨by rw [isConvex_known e1], by rw [isSimple_known e2]⟩
  refine ⟨fun h3' => ?_, fun hl hc => ?_, fun b hl hc hm => ?_⟩
  · apply fin <;> rw [← h] <;> simp [h3']
  · apply fin <;> rw [← h] <;> simp [hl, hc]
  · apply fin <;> rw [← h] <;> simp [hl, hc, hm]

/-- **C63** declarations are forgotten as soon as the polygon changes: after a vertex assignment that does not raise or an
in-place transform, and anything after that, the properties have the values a polygon without flags reports. -/
theorem C63_forgotten (eps : K) (s0 : Polygon K) (before later : List (PolyOp K)) (change : PolyOp K)
    (hch : (∃ T, change = .imul T) ∨
      ∃ i v, change = .setItem i v ∧ ((s0.after eps before).setItem i v).1 = .ok ()) :
    let s := s0.after eps (before ++ change :: later)
    let f := Polygon.fromPoints s.verts
    s.isConvex.1 = f.isConvex.1 ∧ s.isSimple.1 = f.isSimple.1 ∧ s.getCentroid.1 = f.getCentroid.1 ∧
    s.boundingBox.1 = f.boundingBox.1 := by
  apply Agree.fresh
  rw [after_append]
  change Agree ((change.run eps (s0.after eps before)).after eps later)
  apply agree_after
  rcases hch with ⟨T, rfl⟩ | ⟨i, v, rfl, hok⟩
  · simp only [PolyOp.run, imul_eq_cleared]; exact agree_cleared _ _
  · unfold PolyOp.run
    unfold setItem at hok ⊢
    simp only at hok ⊢
    cases hp : pySet (s0.after eps before).verts i v.copy with
    | error e => rw [hp] at hok; cases hok
    | ok vs => exact agree_cleared _ _

/-- **C63** a declared `is_simple` is not kept like `is_convex`: on a bow tie declared simple, reading `is_convex`
changes what `is_simple` answers. -/
theorem C63_simple_alone : ∃ s : Polygon ℚ,
    Polygon.new [⟨0, 0⟩, ⟨2, 2⟩, ⟨2, 0⟩, ⟨0, 2⟩] none (some true) = .ok s ∧ s.isSimple.1 = true ∧
    (s.after (1/1000) [.isConvex]).isSimple.1 = false :=
  ⟨_, rfl, by decide +kernel, by decide +kernel⟩

/-- A wrong declaration: a non-convex polygon declared convex is believed, and forgotten by an assignment. -/
example : ∃ s : Polygon ℚ, Polygon.new [⟨0, 0⟩, ⟨4, 0⟩, ⟨1, 1⟩, ⟨0, 4⟩] (some true) none = .ok s ∧
    s.isConvex.1 = true ∧ (s.after (1/1000) [.setItem 0 ⟨0, 0⟩]).isConvex.1 = false :=
  ⟨_, rfl, by decide +kernel, by decide +kernel⟩

/-- **C64** `is_convex_known`, `is_simple_known` and `is_centroid_known` say that the next read does no work: when True,
reading the property changes nothing; after reading it, it is known. -/
theorem C64_known (s : Polygon K) :
    (s.isConvexKnown = true → s.isConvex.2 = s) ∧ s.isConvex.2.isConvexKnown = true ∧
    (s.isSimpleKnown = true → s.isSimple.2 = s) ∧ s.isSimple.2.isSimpleKnown = true ∧
    (s.isCentroidKnown = true → s.getCentroid.2 = s) ∧
    ((∃ c, s.getCentroid.1 = .ok c) → s.getCentroid.2.isCentroidKnown = true) := by
  refine ⟨fun h => ?_, ?_, fun h => ?_, ?_, fun h => ?_, ?_⟩
  · obtain ⟨b, hb⟩ := Option.isSome_iff_exists.mp h
    rw [isConvex_known hb]
  · cases hc : s.convex with
    | some b => rw [isConvex_known hc]; simp [isConvexKnown, hc]
    | none => rw [isConvex_unknown hc, isConvexKnown, classify_eq]; rfl
  · obtain ⟨b, hb⟩ := Option.isSome_iff_exists.mp h
    rw [isSimple_known hb]
  · cases hs : s.simple with
    | some b => rw [isSimple_known hs]; simp [isSimpleKnown, hs]
    | none =>
      cases hc : s.convex with
      | some b => rw [isSimple_check hs hc]; rfl
      | none =>
        rw [isSimple_unknown hs hc]
        cases hs' : s.classify.simple with
        | some b => rw [isSimple_known hs']; simp [isSimpleKnown, hs']
        | none => rw [isSimple_check hs' (b := cv s.verts) (by rw [classify_eq])]; rfl
  · obtain ⟨b, hb⟩ := Option.isSome_iff_exists.mp h
    unfold getCentroid; rw [hb]
  · unfold getCentroid isCentroidKnown
    cases hc : s.centroid with
    | some c => intro _; simp [hc]
    | none =>
      simp only
      split
      · split
        · rintro ⟨c, h⟩; cases h
        · intro _; rfl
      · intro _; rfl

/-- **C64** what is known: right after construction from points and after every change, nothing for more than three
vertices, convexity and simplicity for a triangle; the centroid never. -/
theorem C64_unknown (eps : K) (s : Polygon K) (vs : List (Vec2 K)) (T : Affine K) (i : Int) (v : Vec2 K) :
    ((fromPoints vs).isConvexKnown = decide (vs.length ≤ 3) ∧ (fromPoints vs).isSimpleKnown = decide (vs.length ≤ 3) ∧
      (fromPoints vs).isCentroidKnown = false) ∧
    ((s.imul T).isConvexKnown = decide (s.verts.length ≤ 3) ∧ (s.imul T).isSimpleKnown = decide (s.verts.length ≤ 3) ∧
      (s.imul T).isCentroidKnown = false) ∧
    ((s.setItem i v).1 = .ok () → (s.setItem i v).2.isConvexKnown = decide (s.verts.length ≤ 3) ∧
      (s.setItem i v).2.isSimpleKnown = decide (s.verts.length ≤ 3) ∧ (s.setItem i v).2.isCentroidKnown = false) := by
  have hcl : ∀ (ws : List (Vec2 K)) t, (cleared ws t).isConvexKnown = decide (ws.length ≤ 3) ∧
      (cleared ws t).isSimpleKnown = decide (ws.length ≤ 3) ∧ (cleared ws t).isCentroidKnown = false := by
    intro ws t
    by_cases h3 : ws.length > 3
    · simp [isConvexKnown, isSimpleKnown, isCentroidKnown, cleared, h3]
    · simp [isConvexKnown, isSimpleKnown, isCentroidKnown, cleared, h3]
      omega
  refine ⟨hcl vs none, ?_, ?_⟩
  · rw [imul_eq_cleared]
    have := hcl (s.verts.map T.apply) (if 3 < s.verts.length then s.triTest else none)
    rwa [List.length_map] at this
  · intro hok
    have hl := run_length eps s (.setItem i v)
    simp only [PolyOp.run] at hl
    rw [← hl]
    unfold setItem at hok ⊢
    cases hp : pySet s.verts i v.copy with
    | error e => rw [hp] at hok; cases hok
    | ok ws => exact hcl _ _

/-- **C64** known stays known under reads and queries (for a polygon without declared flags); `is_convex` in every
case. -/
theorem C64_stays (eps : K) (s : Polygon K) (op : PolyOp K) (hr : op.isRead = true) :
    (s.isConvexKnown = true → (op.run eps s).isConvexKnown = true) ∧
    (s.isConvexKnown = true → s.isSimpleKnown = true → (op.run eps s).isSimpleKnown = true) := by
  have hcv : ∀ t : Polygon K, t.isConvexKnown = true → t.isConvex.2 = t := fun t h => (C64_known t).1 h
  have hsm : s.isConvexKnown = true → s.isSimple.2.isConvexKnown = true := by
    intro h
    obtain ⟨b, hb⟩ := Option.isSome_iff_exists.mp h
    cases hs : s.simple with
    | some m => rw [isSimple_known hs]; exact h
    | none => rw [isSimple_check hs hb]; exact h
  have hce : s.getCentroid.2.isConvexKnown = s.isConvexKnown ∨ s.getCentroid.2.isConvexKnown = s.isSimple.2.isConvexKnown := by
    unfold getCentroid
    split
    · exact .inl rfl
    · simp only
      split
      · split <;> exact .inr rfl
      · exact .inr rfl
  constructor
  · intro h
    cases op with
    | setItem i v => simp [PolyOp.isRead] at hr
    | imul T => simp [PolyOp.isRead] at hr
    | isConvex => exact (C64_known s).2.1
    | isSimple => exact hsm h
    | centroid =>
      rcases hce with e | e
      · exact e.trans h
      · exact e.trans (hsm h)
    | boundingBox =>
      simp only [PolyOp.run, boundingBox]
      split
      · exact h
      · split <;> exact h
    | contains p =>
      obtain ⟨e1, -⟩ := contains_flags eps s p
      simp only [PolyOp.run, isConvexKnown, e1]; exact h
    | tangents p =>
      rcases tangents_state s p with e | e
      · simp only [PolyOp.run, e]; exact h
      · simp only [PolyOp.run, e]; exact (C64_known s).2.1
  · intro h h'
    obtain ⟨b, hb⟩ := Option.isSome_iff_exists.mp h
    obtain ⟨m, hm⟩ := Option.isSome_iff_exists.mp h'
    have := (reads_keep (eps := eps) hb hm [op] (by simpa using hr)).2
    simp only [Polygon.after, List.foldl] at this
    simp [isSimpleKnown, this]

theorem classify_centroid (s : Polygon K) : s.classify.centroid = s.centroid := by rw [classify_eq]

theorem isConvex_centroid' (s : Polygon K) : s.isConvex.2.centroid = s.centroid := by
  unfold isConvex
  split
  · rfl
  · exact classify_centroid s

theorem isSimple_centroid (s : Polygon K) : s.isSimple.2.centroid = s.centroid := by
  unfold isSimple
  split
  · rfl
  · simp only
    have : ∀ q : Polygon K, q.centroid = s.centroid → (match q.simple with
        | some b => (b, q)
        | none => (checkSimple q.verts, { q with simple := some (checkSimple q.verts) }) : Bool × Polygon K).2.centroid
          = s.centroid := by
      intro q hq; split <;> exact hq
    refine this _ ?_
    split
    · exact classify_centroid s
    · rfl

theorem boundingBox_centroid (s : Polygon K) : s.boundingBox.2.centroid = s.centroid := by
  unfold boundingBox
  split
  · rfl
  · split <;> rfl

/-- **C64** a known centroid stays known, with its value, under any reads and queries; it becomes known only by reading
it. -/
theorem C64_centroid (eps : K) (s : Polygon K) (reads : List (PolyOp K)) (hr : ∀ op ∈ reads, op.isRead = true) :
    (s.isCentroidKnown = true → (s.after eps reads).isCentroidKnown = true ∧
      (s.after eps reads).getCentroid.1 = s.getCentroid.1) ∧
    (PolyOp.centroid ∉ reads → (s.after eps reads).isCentroidKnown = s.isCentroidKnown) := by
  have step : ∀ (s : Polygon K) (op : PolyOp K), op.isRead = true →
      (s.isCentroidKnown = true ∨ op ≠ .centroid) → (op.run eps s).centroid = s.centroid := by
    intro s op hr h
    cases op with
    | setItem i v => simp [PolyOp.isRead] at hr
    | imul T => simp [PolyOp.isRead] at hr
    | isConvex => exact isConvex_centroid' s
    | isSimple => exact isSimple_centroid s
    | centroid =>
      rcases h with h | h
      · exact congrArg Polygon.centroid ((C64_known s).2.2.2.2.1 h)
      · exact absurd rfl h
    | boundingBox => exact boundingBox_centroid s
    | contains p =>
      simp only [PolyOp.run]
      unfold containsPoint
      simp only
      split
      · unfold pnpTriangle
        split
        · rfl
        · split <;> rfl
      · split
        · rfl
        · rfl
        · split
          · rfl
          · split
            · rfl
            · have hb := boundingBox_centroid s
              split
              · rename_i heq; rw [heq] at hb; exact hb
              · rename_i heq; rw [heq] at hb
                split <;> exact hb
    | tangents p =>
      rcases tangents_state s p with e | e
      · simp only [PolyOp.run, e]
      · simp only [PolyOp.run, e]; exact isConvex_centroid' s
  constructor
  · intro h
    have : (s.after eps reads).centroid = s.centroid := by
      induction reads generalizing s with
      | nil => rfl
      | cons op reads ih =>
        have e := step s op (hr op (by simp)) (Or.inl h)
        rw [Polygon.after, List.foldl_cons]
        exact (ih (op.run eps s) (fun o ho => hr o (by simp [ho])) (by unfold isCentroidKnown; rw [e]; exact h)).trans e
    obtain ⟨c, hc⟩ := Option.isSome_iff_exists.mp h
    refine ⟨by unfold isCentroidKnown; rw [this, hc]; rfl, ?_⟩
    unfold getCentroid
    rw [this, hc]
  · intro hn
    have : (s.after eps reads).centroid = s.centroid := by
      induction reads generalizing s with
      | nil => rfl
      | cons op reads ih =>
        simp only [List.mem_cons, not_or] at hn
        have e := step s op (hr op (by simp)) (Or.inr (Ne.symm hn.1))
        rw [Polygon.after, List.foldl_cons]
        exact (ih (op.run eps s) (fun o ho => hr o (by simp [ho])) hn.2).trans e
    unfold isCentroidKnown; rw [this]

/-- Known after a read, unknown after a write. -/
example : let s : Polygon ℚ := Polygon.fromPoints [⟨0, 0⟩, ⟨4, 0⟩, ⟨1, 1⟩, ⟨0, 4⟩]
    s.isConvexKnown = false ∧ s.isConvex.2.isConvexKnown = true ∧ s.getCentroid.2.isCentroidKnown = true ∧
      (s.after (1/1000) [.centroid, .setItem 1 ⟨5, 0⟩]).isCentroidKnown = false := by
  decide +kernel

end Planar
