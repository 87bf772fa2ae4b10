import Verif.Lemmas.Threads
/- Threads that read one polygon whose convexity is known (or that do not need it): any interleaving. -/
set_option linter.unusedSectionVars false
namespace Planar
open Threaded

variable {K : Type} [Add K] [Sub K] [Mul K] [Div K] [Zero K] [One K] [BEq K] [LT K] [LE K] [DecidableLT K] [DecidableLE K]

/-- The value of `is_simple` when the convexity is known. -/
def simpleVal (s : Polygon K) : Bool := s.simple.getD (Polygon.checkSimple s.verts)

/-- The value of `centroid` when the convexity and the centroid are not both unknown. -/
def cenVal (s : Polygon K) : Py (Option (Vec2 K)) :=
  if simpleVal s then (Polygon.computeCentroid s.verts).map some else .ok none

/-- What other threads may have done between two moments: filled caches with the values that belong there. The centroid
only when `cen`, simplicity only when `sim`. -/
structure Grew (eps : K) (sim cen : Prop) (s s' : Shared K) : Prop where
  verts : s'.obj.verts = s.obj.verts
  convex : s'.obj.convex = s.obj.convex
  dupe : s'.obj.dupeVerts = s.obj.dupeVerts
  maxR2 : s'.obj.maxR2 = s.obj.maxR2
  minR2 : s'.obj.minR2 = s.obj.minR2
  refs : s'.refs = s.refs
  lists : s'.lists = s.lists
  simple : s'.obj.simple = s.obj.simple ∨ (sim ∧ s.obj.simple = none ∧ s'.obj.simple = some (Polygon.checkSimple s.obj.verts))
  bbox : s'.obj.bbox = s.obj.bbox ∨ (s.obj.bbox = none ∧ ∃ b, Box.fromPoints s.obj.verts = .ok b ∧ s'.obj.bbox = some b)
  centroid : s'.obj.centroid = s.obj.centroid ∨
    (cen ∧ s.obj.centroid = none ∧ ∃ c, cenVal s.obj = .ok c ∧ s'.obj.centroid = some c)
  tri : s'.obj.triTest = s.obj.triTest ∨
    (s.obj.triTest = none ∧ ∃ c, Polygon.triangleClosure eps s.obj.verts = .ok (some c) ∧ s'.obj.triTest = some c)

variable {eps : K} {sim cen : Prop}

theorem Grew.refl (s : Shared K) : Grew eps sim cen s s :=
  ⟨rfl, rfl, rfl, rfl, rfl, rfl, rfl, .inl rfl, .inl rfl, .inl rfl, .inl rfl⟩

theorem Grew.simpleVal {s t : Shared K} (h : Grew eps sim cen s t) : simpleVal t.obj = simpleVal s.obj := by
  unfold Planar.simpleVal
  rw [h.verts]
  rcases h.simple with h | ⟨-, h1, h2⟩
  · rw [h]
  · rw [h1, h2]; rfl

theorem Grew.cenVal {s t : Shared K} (h : Grew eps sim cen s t) : cenVal t.obj = cenVal s.obj := by
  unfold Planar.cenVal
  rw [h.simpleVal, h.verts]

theorem Grew.trans {s t u : Shared K} (h : Grew eps sim cen s t) (g : Grew eps sim cen t u) : Grew eps sim cen s u := by
  refine ⟨g.verts.trans h.verts, g.convex.trans h.convex, g.dupe.trans h.dupe, g.maxR2.trans h.maxR2, g.minR2.trans h.minR2,
    g.refs.trans h.refs, g.lists.trans h.lists, ?_, ?_, ?_, ?_⟩
  · rcases g.simple with g' | ⟨g1, g2, g3⟩
    · rw [g']; exact h.simple
    · rcases h.simple with h' | ⟨h1, h2, h3⟩
      · exact .inr ⟨g1, h' ▸ g2, by rw [g3, h.verts]⟩
      · rw [h3] at g2; cases g2
  · rcases g.bbox with g' | ⟨g2, b, g3, g4⟩
    · rw [g']; exact h.bbox
    · rcases h.bbox with h' | ⟨h2, c, h3, h4⟩
      · exact .inr ⟨h' ▸ g2, b, by rw [← h.verts]; exact g3, g4⟩
      · rw [h4] at g2; cases g2
  · rcases g.centroid with g' | ⟨g1, g2, b, g3, g4⟩
    · rw [g']; exact h.centroid
    · rcases h.centroid with h' | ⟨h1, h2, c, h3, h4⟩
      · exact .inr ⟨g1, h' ▸ g2, b, by rw [← h.cenVal]; exact g3, g4⟩
      · rw [h4] at g2; cases g2
  · rcases g.tri with g' | ⟨g2, b, g3, g4⟩
    · rw [g']; exact h.tri
    · rcases h.tri with h' | ⟨h2, c, h3, h4⟩
      · exact .inr ⟨h' ▸ g2, b, by rw [← h.verts]; exact g3, g4⟩
      · rw [h4] at g2; cases g2

/-- A thread that starts after `s0` and ends with a result of which `P` holds. -/
abbrev OkFrom (eps : K) (sim cen : Prop) {α : Type} (s0 : Shared K) (P : α → Prop) (t : Thread (Shared K) α) : Prop :=
  ∀ s, Grew eps sim cen s0 s → t.Safe (Grew eps sim cen) P s

theorem OkFrom.bind {α β : Type} {s0 : Shared K} {P : α → Prop} {Q : β → Prop} {t : Thread (Shared K) α}
    {k : α → Thread (Shared K) β} (h : OkFrom eps sim cen s0 P t) (hk : ∀ a, P a → OkFrom eps sim cen s0 Q (k a)) :
    OkFrom eps sim cen s0 Q (t.bind k) := fun s hs =>
  Thread.Safe.bind Grew.refl (fun _ _ _ => Grew.trans) t s (h s hs) fun a s' hs' hP => hk a hP s' (hs.trans hs')

theorem ok_done {α : Type} {s0 : Shared K} {P : α → Prop} {a : α} (h : P a) : OkFrom eps sim cen s0 P (.done a) := fun _ _ => h

/-- A read: of the value `P` holds. -/
theorem ok_attr {α : Type} {s0 : Shared K} {P : α → Prop} {f : Polygon K → α} (h : ∀ s, Grew eps sim cen s0 s → P (f s.obj)) :
    OkFrom eps sim cen s0 P (attr f) := fun s hs s' hs' => ⟨Grew.refl _, h s' (hs.trans hs')⟩

/-- A write that others may rely on. -/
theorem ok_setAttr {s0 : Shared K} {f : Polygon K → Polygon K}
    (h : ∀ s, Grew eps sim cen s0 s → Grew eps sim cen s { s with obj := f s.obj }) :
    OkFrom eps sim cen s0 (fun _ => True) (setAttr f) := fun s hs s' hs' => ⟨h s' (hs.trans hs'), trivial⟩

theorem ok_verts {s0 : Shared K} : OkFrom eps sim cen s0 (fun v => v = s0.obj.verts) (attr Polygon.verts) :=
  ok_attr fun _ h => h.verts

theorem ok_convex {s0 : Shared K} : OkFrom eps sim cen s0 (fun v => v = s0.obj.convex) (attr Polygon.convex) :=
  ok_attr fun _ h => h.convex

theorem ok_isConvex {s0 : Shared K} (hc : s0.obj.convex ≠ none) :
    OkFrom eps sim cen s0 (fun b => b = s0.obj.isConvex.1) (isConvex (K := K)) := by
  refine ok_convex.bind fun c h1 => ?_
  subst h1
  simp only [hc, if_false]
  refine ok_convex.bind fun c h1 => ok_done ?_
  subst h1
  unfold Polygon.isConvex
  cases h : s0.obj.convex with
  | none => exact absurd h hc
  | some b => rfl

theorem ok_isSimple {s0 : Shared K} (hsim : sim) (hc : s0.obj.convex ≠ none) :
    OkFrom eps sim cen s0 (fun b => b = simpleVal s0.obj) (isSimple (K := K)) := by
  have fin : ∀ s, Grew eps sim cen s0 s → s.obj.simple ≠ none →
      (attr (K := K) Polygon.simple >>= fun b => pure (b.getD false)).Safe (Grew eps sim cen) (fun b => b = simpleVal s0.obj) s := by
    intro s hs hn s' hs'
    refine ⟨Grew.refl _, ?_⟩
    have hs'' := hs.trans hs'
    change s'.obj.simple.getD false = _
    rw [← hs''.simpleVal]
    unfold simpleVal
    cases h : s'.obj.simple with
    | some b => rfl
    | none =>
      exfalso
      rcases hs'.simple with h' | ⟨-, h1, h2⟩
      · rw [h'] at h; exact hn h
      · rw [h2] at h; cases h
  have chk : ∀ s, Grew eps sim cen s0 s → (attr (K := K) Polygon.simple >>= fun b =>
      if b = none then attr Polygon.verts >>= fun verts => setAttr (fun o => { o with simple := some (Polygon.checkSimple verts) }) >>= fun _ =>
        attr Polygon.simple >>= fun b => pure (b.getD false)
      else attr Polygon.simple >>= fun b => pure (b.getD false)).Safe (Grew eps sim cen) (fun b => b = simpleVal s0.obj) s := by
    intro s hs s1 hs1
    refine ⟨Grew.refl _, ?_⟩
    have h1 := hs.trans hs1
    change Thread.Safe _ _ (if s1.obj.simple = none then _ else _) s1
    split_ifs with hn
    · intro s2 hs2
      refine ⟨Grew.refl _, ?_⟩
      have h2 := h1.trans hs2
      intro s3 hs3
      have h3 := h2.trans hs3
      have hg : Grew eps sim cen s3 { s3 with obj := { s3.obj with simple := some (Polygon.checkSimple s2.obj.verts) } } := by
        refine ⟨rfl, rfl, rfl, rfl, rfl, rfl, rfl, ?_, .inl rfl, .inl rfl, .inl rfl⟩
        rcases (hs2.trans hs3).simple with h' | ⟨-, h', h''⟩
        · exact .inr ⟨hsim, h'.trans hn, congrArg (fun v => some (Polygon.checkSimple v)) hs3.verts.symm⟩
        · left
          rw [h'', hs2.verts]
      refine ⟨hg, ?_⟩
      exact fin _ (h3.trans hg) (Option.some_ne_none _)
    · exact fin s1 h1 hn
  intro s hs s1 hs1
  refine ⟨Grew.refl _, ?_⟩
  have h1 := hs.trans hs1
  change Thread.Safe _ _ (if s1.obj.simple = none then _ else _) s1
  split_ifs with hn
  · intro s2 hs2
    refine ⟨Grew.refl _, ?_⟩
    have h2 := h1.trans hs2
    change Thread.Safe _ _ (if s2.obj.convex = none then _ else _) s2
    rw [if_neg (by rw [h2.convex]; exact hc)]
    exact chk s2 h2
  · exact fin s1 h1 hn

theorem Grew.box {s t : Shared K} (h : Grew eps sim cen s t) : t.obj.boundingBox.1 = s.obj.boundingBox.1 := by
  unfold Polygon.boundingBox
  rcases h.bbox with h' | ⟨h1, b, h2, h3⟩
  · rw [h', h.verts]
    cases s.obj.bbox with
    | some b => rfl
    | none => cases Box.fromPoints s.obj.verts <;> rfl
  · rw [h1, h3, h2]

theorem ok_boundingBox {s0 : Shared K} : OkFrom eps sim cen s0 (fun r => r = s0.obj.boundingBox.1) (boundingBox (K := K)) := by
  have fin : ∀ s, Grew eps sim cen s0 s → s.obj.bbox ≠ none →
      (boundingBox.finish (K := K)).Safe (Grew eps sim cen) (fun r => r = s0.obj.boundingBox.1) s := by
    intro s hs hn s' hs'
    refine ⟨Grew.refl _, ?_⟩
    rw [← (hs.trans hs').box]
    change Thread.Safe _ _ (match s'.obj.bbox with | some b => Thread.done (Except.ok b) | none => Thread.done (Except.error PyErr.typeError)) _
    unfold Polygon.boundingBox
    cases h : s'.obj.bbox with
    | some b => rfl
    | none =>
      exfalso
      rcases hs'.bbox with h' | ⟨h1, b, h2, h3⟩
      · rw [h'] at h; exact hn h
      · rw [h3] at h; cases h
  intro s hs s1 hs1
  refine ⟨Grew.refl _, ?_⟩
  have h1 := hs.trans hs1
  change Thread.Safe _ _ (match s1.obj.bbox with
      | some _ => boundingBox.finish
      | none => attr Polygon.verts >>= fun verts => (match Box.fromPoints verts with
        | .error e => pure (.error e)
        | .ok b => setAttr (fun o => { o with bbox := some b }) >>= fun _ => boundingBox.finish)) s1
  cases hb : s1.obj.bbox with
  | some b => exact fin s1 h1 (by rw [hb]; exact Option.some_ne_none _)
  | none =>
    intro s2 hs2
    refine ⟨Grew.refl _, ?_⟩
    have h2 := h1.trans hs2
    change Thread.Safe _ _ (match Box.fromPoints s2.obj.verts with
      | .error e => pure (.error e)
      | .ok b => setAttr (fun o => { o with bbox := some b }) >>= fun _ => boundingBox.finish) s2
    cases hf : Box.fromPoints s2.obj.verts with
    | error e =>
      change _ = _
      rw [← h1.box]
      rw [hs2.verts] at hf
      unfold Polygon.boundingBox
      rw [hb, hf]
    | ok b =>
      intro s3 hs3
      have h3 := h2.trans hs3
      have hg : Grew eps sim cen s3 { s3 with obj := { s3.obj with bbox := some b } } := by
        refine ⟨rfl, rfl, rfl, rfl, rfl, rfl, rfl, .inl rfl, ?_, .inl rfl, .inl rfl⟩
        rw [← hs3.verts] at hf
        rcases (hs2.trans hs3).bbox with h' | ⟨-, b', h', h''⟩
        · exact .inr ⟨h'.trans hb, b, hf, rfl⟩
        · left
          rw [h'']
          rw [hs3.verts, hs2.verts, h'] at hf
          cases hf; rfl
      exact ⟨hg, fin _ (h3.trans hg) (Option.some_ne_none _)⟩

theorem Grew.triangle {s t : Shared K} (h : Grew eps sim cen s t) (p : PyPoint K) :
    (t.obj.pnpTriangle eps p).1 = (s.obj.pnpTriangle eps p).1 := by
  unfold Polygon.pnpTriangle
  rcases h.tri with h' | ⟨h1, b, h2, h3⟩
  · rw [h', h.verts]
    cases s.obj.triTest with
    | some b => rfl
    | none =>
      cases Polygon.triangleClosure eps s.obj.verts with
      | error e => rfl
      | ok c => cases c <;> rfl
  · rw [h1, h3, h2]

theorem ok_pnpTriangle {s0 : Shared K} (p : PyPoint K) :
    OkFrom eps sim cen s0 (fun r => r = (s0.obj.pnpTriangle eps p).1) (pnpTriangle eps p) := by
  intro s hs s1 hs1
  refine ⟨Grew.refl _, ?_⟩
  have h1 := hs.trans hs1
  rw [← h1.triangle p]
  change Thread.Safe _ _ (match s1.obj.triTest with
      | some c => pure (Polygon.TriClosure.run c p)
      | none => attr Polygon.verts >>= fun verts => (match Polygon.triangleClosure eps verts with
        | .error e => pure (.error e)
        | .ok none => pure (.ok false)
        | .ok (some c) => setAttr (fun o => { o with triTest := some c }) >>= fun _ => pure (Polygon.TriClosure.run c p))) s1
  unfold Polygon.pnpTriangle
  cases hb : s1.obj.triTest with
  | some b => rfl
  | none =>
    intro s2 hs2
    refine ⟨Grew.refl _, ?_⟩
    change Thread.Safe _ _ (match Polygon.triangleClosure eps s2.obj.verts with
      | .error e => pure (.error e)
      | .ok none => pure (.ok false)
      | .ok (some c) => setAttr (fun o => { o with triTest := some c }) >>= fun _ => pure (Polygon.TriClosure.run c p)) s2
    rw [hs2.verts]
    cases hf : Polygon.triangleClosure eps s1.obj.verts with
    | error e => rfl
    | ok c =>
      cases c with
      | none => rfl
      | some c =>
        intro s3 hs3
        have h3 := hs2.trans hs3
        refine ⟨?_, rfl⟩
        refine ⟨rfl, rfl, rfl, rfl, rfl, rfl, rfl, .inl rfl, .inl rfl, .inl rfl, ?_⟩
        rcases h3.tri with h' | ⟨-, b', h', h''⟩
        · exact .inr ⟨h'.trans hb, c, by rw [h3.verts]; exact hf, rfl⟩
        · left
          rw [h'']
          rw [h'] at hf
          cases hf; rfl

/-- `centroid` when the convexity is known. -/
theorem getCentroid_val {s : Polygon K} (hc : s.convex ≠ none) :
    s.getCentroid.1 = (match s.centroid with | some c => .ok c | none => cenVal s) := by
  have hs : s.isSimple.1 = simpleVal s ∧ s.isSimple.2.verts = s.verts := by
    unfold Polygon.isSimple simpleVal
    cases h1 : s.simple with
    | some b => exact ⟨rfl, rfl⟩
    | none =>
      cases h2 : s.convex with
      | none => exact absurd h2 hc
      | some c => simp [h1]
  unfold Polygon.getCentroid cenVal
  cases s.centroid with
  | some c => rfl
  | none =>
    simp only [hs.1, hs.2]
    split_ifs
    · cases Polygon.computeCentroid s.verts <;> rfl
    · rfl

theorem ok_getCentroid {s0 : Shared K} (hsim : sim) (hcen : cen) (hc : s0.obj.convex ≠ none) :
    OkFrom eps sim cen s0 (fun r => r = s0.obj.getCentroid.1) (getCentroid (K := K)) := by
  have hval : ∀ s, Grew eps sim cen s0 s → s.obj.getCentroid.1 = s0.obj.getCentroid.1 := by
    intro s hs
    rw [getCentroid_val hc, getCentroid_val (by rw [hs.convex]; exact hc), hs.cenVal]
    rcases hs.centroid with h | ⟨-, h1, c, h2, h3⟩
    · rw [h]
    · rw [h1, h3, h2]
  have fin : ∀ c s, Grew eps sim cen s0 s → s0.obj.centroid = none → cenVal s0.obj = .ok c →
      ((setAttr (K := K) fun o => { o with centroid := some c }).bind fun _ =>
        (attr Polygon.centroid).bind fun c => Thread.done (Except.ok (ε := PyErr) (c.getD none))).Safe (Grew eps sim cen)
        (fun r => r = s0.obj.getCentroid.1) s := by
    intro c s hs hn hv s1 hs1
    have h1 := hs.trans hs1
    have hg : Grew eps sim cen s1 { s1 with obj := { s1.obj with centroid := some c } } := by
      refine ⟨rfl, rfl, rfl, rfl, rfl, rfl, rfl, .inl rfl, .inl rfl, ?_, .inl rfl⟩
      rcases h1.centroid with h' | ⟨-, -, b', h', h''⟩
      · exact .inr ⟨hcen, h'.trans hn, c, by rw [h1.cenVal]; exact hv, rfl⟩
      · left
        rw [h'']
        rw [h'] at hv
        cases hv; rfl
    refine ⟨hg, fun s2 hs2 => ⟨Grew.refl _, ?_⟩⟩
    change Except.ok (s2.obj.centroid.getD none) = s0.obj.getCentroid.1
    rcases hs2.centroid with h | ⟨-, h, -⟩
    · rw [h, getCentroid_val hc, hn, hv]; rfl
    · cases h
  have e : getCentroid (K := K) = (attr Polygon.centroid).bind fun c => match c with
      | some c => .done (.ok c)
      | none => (isSimple (K := K)).bind fun b => if b then (attr Polygon.verts).bind fun verts =>
          (match Polygon.computeCentroid verts with
          | .error e => .done (.error e)
          | .ok c => (setAttr fun o => { o with centroid := some (some c) }).bind fun _ => (attr Polygon.centroid).bind fun c => .done (.ok (c.getD none)))
        else (setAttr fun o => { o with centroid := some none }).bind fun _ => (attr Polygon.centroid).bind fun c => .done (.ok (c.getD none)) := rfl
  rw [e]
  intro s hs s1 hs1
  refine ⟨Grew.refl _, ?_⟩
  have h1 := hs.trans hs1
  have hv1 := hval s1 h1
  rw [getCentroid_val (by rw [h1.convex]; exact hc)] at hv1
  simp only [Thread.done_bind, id]
  cases hb : s1.obj.centroid with
  | some c => rw [hb] at hv1; exact hv1
  | none =>
    have hn : s0.obj.centroid = none := by
      rcases h1.centroid with h | ⟨-, h, -⟩
      · rw [← h]; exact hb
      · exact h
    refine (ok_isSimple hsim hc).bind (fun b hbv => ?_) s1 h1
    subst hbv
    have hcv : cenVal s0.obj = if simpleVal s0.obj then (Polygon.computeCentroid s0.obj.verts).map some else .ok none := rfl
    cases hsv : simpleVal s0.obj with
    | false =>
      rw [hsv] at hcv
      exact fun s2 h2 => fin none s2 h2 hn hcv
    | true =>
      rw [hsv] at hcv
      refine ok_verts.bind fun verts hv => ?_
      subst hv
      intro s2 h2
      cases hcc : Polygon.computeCentroid s0.obj.verts with
      | error e =>
        change _ = _
        rw [getCentroid_val hc, hn, hcv, hcc]; rfl
      | ok c =>
        rw [hcc] at hcv
        exact fin (some c) s2 h2 hn hcv

/-- The radial test of `contains_point` on a polygon with a known centroid. -/
def radialOf (s : Polygon K) (p : PyPoint K) : Py (Option Bool) :=
  match s.centroid with
  | some (some c) =>
    let d2 := (c - p.toVec).length2
    if (match s.minR2 with | some r => decide (d2 < r) | none => false) then .ok (some true)
    else if (match s.maxR2 with | some r => decide (d2 > r) | none => false) then .ok (some false)
    else .ok none
  | _ => .error .typeError

/-- The end of `contains_point`. -/
def restOf (sides : Nat) (s : Polygon K) (p : PyPoint K) : Py Bool :=
  match s.yPolylines with
  | some pls => Polygon.pnpYMonotone pls p.toVec
  | none =>
    if sides = 4 then .ok (Polygon.pnpWinding s.verts p.toVec)
    else match s.boundingBox.1 with
      | .error e => .error e
      | .ok b => if b.containsPoint p.toVec then .ok (Polygon.pnpWinding s.verts p.toVec) else .ok false

theorem contains_of (s : Polygon K) (p : PyPoint K) : (s.containsPoint eps p).1 =
    if s.verts.length = 3 then (s.pnpTriangle eps p).1
    else if s.centroid.isSome ∧ s.verts.length > 4 then match radialOf s p with
      | .error e => .error e
      | .ok (some b) => .ok b
      | .ok none => restOf s.verts.length s p
    else restOf s.verts.length s p := by
  have hrest : (match s.yPolylines with
      | some pls => (Polygon.pnpYMonotone pls p.toVec, s)
      | none =>
        if s.verts.length = 4 then (.ok (Polygon.pnpWinding s.verts p.toVec), s)
        else match s.boundingBox with
          | (.error e, s) => (.error e, s)
          | (.ok b, s) => if b.containsPoint p.toVec then (.ok (Polygon.pnpWinding s.verts p.toVec), s) else (.ok false, s)).1
      = restOf s.verts.length s p := by
    unfold restOf
    cases s.yPolylines with
    | some pls => rfl
    | none =>
      simp only
      split_ifs
      · rfl
      · have hv : s.boundingBox.2.verts = s.verts := by
          unfold Polygon.boundingBox
          cases s.bbox with
          | some b => rfl
          | none => cases Box.fromPoints s.verts <;> rfl
        revert hv
        generalize s.boundingBox = x
        intro hv
        obtain ⟨r, s'⟩ := x
        simp only at hv
        cases r with
        | error e => rfl
        | ok b =>
          simp only [hv]
          split_ifs <;> rfl
  unfold Polygon.containsPoint radialOf
  simp only
  by_cases h3 : s.verts.length = 3
  · simp only [h3, if_true]
  · simp only [h3, if_false]
    cases hc : s.centroid with
    | none =>
      simp only [Option.isSome_none, Bool.false_eq_true, false_and, if_false]
      exact hrest
    | some c =>
      by_cases h4 : s.verts.length > 4
      · simp only [h4, Option.isSome_some, and_self, if_true]
        cases c with
        | none => rfl
        | some c =>
          simp only
          rcases h1 : s.minR2 with _ | lo <;> rcases h2 : s.maxR2 with _ | hi <;> simp only
          · exact hrest
          · by_cases hh : (c - p.toVec).length2 > hi <;> simp only [hh, decide_true, decide_false, Bool.false_eq_true, if_true, if_false] <;> first | rfl | exact hrest
          · by_cases hl : (c - p.toVec).length2 < lo <;> simp only [hl, decide_true, decide_false, Bool.false_eq_true, if_true, if_false] <;> first | rfl | exact hrest
          · by_cases hh : (c - p.toVec).length2 > hi <;> by_cases hl : (c - p.toVec).length2 < lo <;>
              simp only [hh, hl, decide_true, decide_false, Bool.false_eq_true, if_true, if_false] <;> first | rfl | exact hrest
      · simp only [h4, and_false, if_false]
        exact hrest

theorem ok_radial {s0 : Shared K} (hk : s0.obj.centroid ≠ none) (p : PyPoint K) :
    OkFrom eps sim cen s0 (fun r => r = radialOf s0.view p) (radialTest p) := by
  have e : ∀ s, Grew eps sim cen s0 s → s.obj.centroid = s0.obj.centroid := by
    intro s hs
    rcases hs.centroid with h | ⟨-, h, -⟩
    · exact h
    · exact absurd h hk
  have hmin : OkFrom eps sim cen s0 (fun v => v = s0.obj.minR2) (attr Polygon.minR2) := ok_attr fun _ h => h.minR2
  have hmax : OkFrom eps sim cen s0 (fun v => v = s0.obj.maxR2) (attr Polygon.maxR2) := ok_attr fun _ h => h.maxR2
  have hcen : OkFrom eps sim cen s0 (fun v => v = s0.obj.centroid) (attr Polygon.centroid) := ok_attr e
  refine hcen.bind fun c hc => ?_
  subst hc
  have hview : radialOf s0.view p = radialOf s0.obj p := rfl
  rw [hview]
  unfold radialOf
  match hc : s0.obj.centroid with
  | none => exact absurd hc hk
  | some none => exact ok_done rfl
  | some (some c) =>
    refine hmin.bind fun lo hlo => ?_
    subst hlo
    rcases h1 : s0.obj.minR2 with _ | lo
    · refine hmax.bind fun hi hhi => ?_
      subst hhi
      rcases h2 : s0.obj.maxR2 with _ | hi
      · exact ok_done rfl
      · by_cases hh : (c - p.toVec).length2 > hi <;>
          simp only [hh, decide_true, decide_false, Bool.false_eq_true, if_true, if_false] <;> exact ok_done rfl
    · by_cases hl : (c - p.toVec).length2 < lo
      · simp only [hl, decide_true, decide_false, Bool.false_eq_true, if_true, if_false]
        exact ok_done rfl
      · simp only [hl, decide_true, decide_false, Bool.false_eq_true, if_true, if_false]
        refine hmax.bind fun hi hhi => ?_
        subst hhi
        rcases h2 : s0.obj.maxR2 with _ | hi
        · exact ok_done rfl
        · by_cases hh : (c - p.toVec).length2 > hi <;>
            simp only [hh, decide_true, decide_false, Bool.false_eq_true, if_true, if_false] <;> exact ok_done rfl

theorem ok_list {s0 : Shared K} (i : Nat) : OkFrom eps sim cen s0 (fun l => l = s0.list i) (listAt i) :=
  fun s hs s' hs' => ⟨Grew.refl _, by
    change s'.list i = _
    unfold Shared.list
    rw [(hs.trans hs').lists]⟩

theorem ok_refs {s0 : Shared K} : OkFrom eps sim cen s0 (fun l => l = s0.refs) (Thread.read Shared.refs) :=
  fun s hs s' hs' => ⟨Grew.refl _, (hs.trans hs').refs⟩

theorem ok_pnpY {s0 : Shared K} (l r : Nat) (hr : s0.refs = some (l, r)) (p : Vec2 K) :
    OkFrom eps sim cen s0 (fun b => b = Polygon.pnpYMonotone (s0.list l, s0.list r) p) (pnpYMonotone p) := by
  have h := congrArg Prod.fst (pnpY_alone s0 l r hr p)
  simp only at h
  generalize Polygon.pnpYMonotone (s0.list l, s0.list r) p = X at h ⊢
  unfold pnpYMonotone at h
  simp only [Thread.bind_eq, Thread.pure_eq, Thread.read, Thread.act_bind, Thread.done_bind, Thread.alone, id, hr, listAt] at h
  refine ok_refs.bind fun c hc => ?_
  subst hc
  rw [hr]
  refine OkFrom.bind (ok_list l) fun x hx => ?_
  subst hx
  refine OkFrom.bind (ok_list l) fun x hx => ?_
  subst hx
  split_ifs with h1
  · rw [if_pos h1] at h
    exact ok_done h
  rw [if_neg h1] at h
  refine OkFrom.bind (ok_list l) fun x hx => ?_
  subst hx
  refine OkFrom.bind (ok_list l) fun x hx => ?_
  subst hx
  simp only [Thread.alone, id] at h
  simp only
  generalize leftOfEdge p (pyGet (s0.list l) ((Polygon.bisectRight (s0.list l) p.y : Int) - 1))
    (pyGet (s0.list l) (Polygon.bisectRight (s0.list l) p.y : Int)) = y at h ⊢
  match y with
  | .error e => exact ok_done h
  | .ok true => exact ok_done h
  | .ok false =>
    refine OkFrom.bind (ok_list r) fun x hx => ?_
    subst hx
    refine OkFrom.bind (ok_list r) fun x hx => ?_
    subst hx
    refine OkFrom.bind (ok_list r) fun x hx => ?_
    subst hx
    exact ok_done h

theorem ok_rest {s0 : Shared K} (sides : Nat) (p : PyPoint K) :
    OkFrom eps sim cen s0 (fun b => b = restOf sides s0.view p) (containsRest sides p) := by
  refine ok_refs.bind fun c hc => ?_
  subst hc
  unfold restOf
  have hy : s0.view.yPolylines = s0.refs.map fun r => (s0.list r.1, s0.list r.2) := rfl
  have hb : s0.view.boundingBox.1 = s0.obj.boundingBox.1 := by
    unfold Polygon.boundingBox
    have h1 : s0.view.bbox = s0.obj.bbox := rfl
    have h2 : s0.view.verts = s0.obj.verts := rfl
    rw [h1, h2]
    cases s0.obj.bbox with
    | some b => rfl
    | none => cases Box.fromPoints s0.obj.verts <;> rfl
  rw [hy, hb]
  cases hr : s0.refs with
  | some lr =>
    obtain ⟨l, r⟩ := lr
    exact ok_pnpY l r hr p.toVec
  | none =>
    simp only [Option.isSome_none, Bool.false_eq_true, if_false, Option.map_none]
    split_ifs
    · exact ok_verts.bind fun v hv => ok_done (by rw [hv]; rfl)
    · refine ok_boundingBox.bind fun b hb => ?_
      rw [← hb]
      cases b with
      | error e => exact ok_done rfl
      | ok b =>
        simp only
        split_ifs
        · exact ok_verts.bind fun v hv => ok_done (by rw [hv]; rfl)
        · exact ok_done rfl

theorem view_triangle (s : Shared K) (p : PyPoint K) : (s.view.pnpTriangle eps p).1 = (s.obj.pnpTriangle eps p).1 := by
  unfold Polygon.pnpTriangle
  have h1 : s.view.triTest = s.obj.triTest := rfl
  have h2 : s.view.verts = s.obj.verts := rfl
  rw [h1, h2]
  cases s.obj.triTest with
  | some b => rfl
  | none =>
    cases Polygon.triangleClosure eps s.obj.verts with
    | error e => rfl
    | ok c => cases c <;> rfl

/-- The answer of `contains_point` is the one of some moment. -/
theorem ok_contains {s0 : Shared K} (p : PyPoint K) :
    OkFrom eps sim cen s0 (fun r => ∃ s, Grew eps sim cen s0 s ∧ r = (s.view.containsPoint eps p).1) (containsPoint eps p) := by
  refine ok_verts.bind fun verts hv => ?_
  have hview : ∀ s, Grew eps sim cen s0 s → s.view.verts = verts := fun s hs => by rw [hv]; exact hs.verts
  simp only
  split_ifs with h3
  · intro s hs
    refine (ok_pnpTriangle p s (Grew.refl s)).imp (fun r hr => ⟨s, hs, ?_⟩)
    rw [hr, contains_of, if_pos (by rw [hview s hs]; exact h3), view_triangle]
  · intro s hs s1 hs1
    refine ⟨Grew.refl _, ?_⟩
    have h1 := hs.trans hs1
    have hans : ∀ r, r = (s1.view.containsPoint eps p).1 → ∃ s, Grew eps sim cen s0 s ∧ r = (s.view.containsPoint eps p).1 :=
      fun r hr => ⟨s1, h1, hr⟩
    have hc := contains_of (eps := eps) s1.view p
    rw [hview s1 h1, if_neg h3] at hc
    have hcv : s1.view.centroid = s1.obj.centroid := rfl
    change Thread.Safe _ _ (if s1.obj.centroid.isSome ∧ verts.length > 4 then _ else _) s1
    by_cases hk : s1.obj.centroid.isSome ∧ verts.length > 4
    · rw [if_pos hk]
      rw [hcv, if_pos hk] at hc
      refine (ok_radial (s0 := s1) (by intro h; rw [h] at hk; exact absurd hk.1 (by simp)) p).bind (fun r hr => ?_) s1 (Grew.refl s1)
      rw [← hr] at hc
      match r with
      | .error e => exact ok_done (hans _ hc.symm)
      | .ok (some b) => exact ok_done (hans _ hc.symm)
      | .ok none => exact fun s hs => (ok_rest (s0 := s1) verts.length p s hs).imp fun r hr => hans r (hr.trans hc.symm)
    · rw [if_neg hk]
      rw [hcv, if_neg hk] at hc
      exact (ok_rest (s0 := s1) verts.length p s1 (Grew.refl s1)).imp fun r hr => hans r (hr.trans hc.symm)

theorem simple_val {s : Polygon K} (hc : s.convex ≠ none) : s.isSimple.1 = simpleVal s ∧ s.isSimple.2.verts = s.verts := by
  unfold Polygon.isSimple simpleVal
  cases h1 : s.simple with
  | some b => exact ⟨rfl, rfl⟩
  | none =>
    cases h2 : s.convex with
    | none => exact absurd h2 hc
    | some c => simp [h1]

/-- `is_convex` runs when the polygon has more than 20 sides. -/
theorem ok_tangents {s0 : Shared K} (hc : s0.obj.convex ≠ none ∨ ¬ s0.obj.verts.length > 20) (p : Vec2 K) :
    OkFrom eps sim cen s0 (fun r => r = (s0.view.tangentsToPoint p).1) (tangentsToPoint p) := by
  have hv : s0.view.verts = s0.obj.verts := rfl
  have hd : s0.view.dupeVerts = s0.obj.dupeVerts := rfl
  have hcv : s0.view.convex = s0.obj.convex := rfl
  have hi : s0.obj.convex ≠ none → s0.view.isConvex = (s0.obj.isConvex.1, s0.view) := by
    intro h
    unfold Polygon.isConvex
    rw [hcv]
    cases h' : s0.obj.convex with
    | none => exact absurd h' h
    | some b => simp
  refine ok_verts.bind fun verts h1 => ?_
  subst h1
  unfold Polygon.tangentsToPoint
  simp only [hv]
  by_cases h20 : s0.obj.verts.length > 20
  · rw [if_pos h20, if_pos h20]
    have hc' := hc.resolve_right (fun h => h h20)
    refine OkFrom.bind (ok_isConvex hc') fun b hb => ?_
    subst hb
    rw [hi hc']
    cases hb : s0.obj.isConvex.1 with
    | false => exact ok_done rfl
    | true =>
      refine OkFrom.bind (P := fun d => d = s0.obj.dupeVerts) (ok_attr fun _ h => h.dupe) fun d hd' => ?_
      subst hd'
      simp only [hd]
      cases hdd : s0.obj.dupeVerts.getD true with
      | false => exact ok_done rfl
      | true => exact ok_done rfl
  · rw [if_neg h20, if_neg h20]
    exact ok_done rfl

/-- What other threads have done changes the answer of `contains_point` only through the centroid. -/
theorem Grew.contains {s t : Shared K} (h : Grew eps sim cen s t) (hc : s.obj.convex ≠ none ∨ ¬ cen) (p : PyPoint K) :
    (t.view.containsPoint eps p).1 = (s.view.containsPoint eps p).1 ∨
      (cen ∧ (t.view.containsPoint eps p).1 = (s.view.getCentroid.2.containsPoint eps p).1) := by
  have hpl : t.view.yPolylines = s.view.yPolylines := by
    change t.refs.map (fun r => (t.list r.1, t.list r.2)) = s.refs.map fun r => (s.list r.1, s.list r.2)
    unfold Shared.list
    rw [h.refs, h.lists]
  have hbv : ∀ u : Shared K, u.view.boundingBox.1 = u.obj.boundingBox.1 := by
    intro u
    unfold Polygon.boundingBox
    have h1 : u.view.bbox = u.obj.bbox := rfl
    have h2 : u.view.verts = u.obj.verts := rfl
    rw [h1, h2]
    cases u.obj.bbox with
    | some b => rfl
    | none => cases Box.fromPoints u.obj.verts <;> rfl
  have hrest : ∀ n, restOf n t.view p = restOf n s.view p := by
    intro n
    unfold restOf
    have hv : t.view.verts = s.view.verts := h.verts
    rw [hpl, hv, hbv, hbv, h.box]
  have hv : t.view.verts = s.view.verts := h.verts
  have hct : t.view.centroid = t.obj.centroid := rfl
  have hcs : s.view.centroid = s.obj.centroid := rfl
  rcases h.centroid with h' | ⟨h1, h2, c, h3, h4⟩
  · left
    have hrad : radialOf t.view p = radialOf s.view p := by
      have e1 : t.view.minR2 = s.view.minR2 := h.minR2
      have e2 : t.view.maxR2 = s.view.maxR2 := h.maxR2
      unfold radialOf
      rw [hct, hcs, h', e1, e2]
    rw [contains_of, contains_of, hv, view_triangle, view_triangle, h.triangle, hct, hcs, h', hrad, hrest]
  · right
    refine ⟨h1, ?_⟩
    have hcx : s.view.convex ≠ none := (hc.resolve_right fun k => k h1)
    obtain ⟨s1, s2⟩ := simple_val hcx
    have hsv : Planar.simpleVal s.view = Planar.simpleVal s.obj := rfl
    have hg : s.view.getCentroid.2 = { s.view.isSimple.2 with centroid := some c } := by
      unfold Polygon.getCentroid
      rw [hcs, h2]
      simp only [s1, s2, hsv]
      unfold Planar.cenVal at h3
      cases hs : Planar.simpleVal s.obj with
      | false =>
        rw [hs] at h3
        simp only [Bool.false_eq_true, if_false] at h3 ⊢
        cases h3; rfl
      | true =>
        rw [hs] at h3
        simp only [if_true] at h3 ⊢
        have : s.view.verts = s.obj.verts := rfl
        rw [this]
        cases hcc : Polygon.computeCentroid s.obj.verts with
        | error e => rw [hcc] at h3; cases h3
        | ok d => rw [hcc] at h3; cases h3; rfl
    have hform : ∀ u : Polygon K, u.convex ≠ none → u.isSimple.2 = { u with simple := u.isSimple.2.simple } := by
      intro u hu
      obtain ⟨vs, c, sm, yp, d, dg, b, ce, m, m2, n, n2, t⟩ := u
      cases sm with
      | some b => rfl
      | none =>
        cases c with
        | none => exact absurd rfl hu
        | some d => rfl
    rw [hg, hform _ hcx]
    generalize s.view.isSimple.2.simple = sv
    rw [contains_of, contains_of]
    have hrad : radialOf t.view p = radialOf { s.view with simple := sv, centroid := some c } p := by
      have e1 : t.view.minR2 = s.view.minR2 := h.minR2
      have e2 : t.view.maxR2 = s.view.maxR2 := h.maxR2
      unfold radialOf
      rw [hct, h4, e1, e2]
    have hrest' : ∀ n, restOf n { s.view with simple := sv, centroid := some c } p = restOf n s.view p := by
      intro n
      unfold restOf Polygon.boundingBox
      simp only
      cases s.view.bbox with
      | some b => rfl
      | none => cases Box.fromPoints s.view.verts <;> rfl
    have htri : (Polygon.pnpTriangle eps { s.view with simple := sv, centroid := some c } p).1 = (s.view.pnpTriangle eps p).1 := by
      unfold Polygon.pnpTriangle
      simp only
      cases s.view.triTest with
      | some b => rfl
      | none =>
        cases Polygon.triangleClosure eps s.view.verts with
        | error e => rfl
        | ok c => cases c <;> rfl
    rw [hrest', htri, hrad, hrest, hv, view_triangle, view_triangle, h.triangle, hct, h4]

/-- May the operation have to find out whether a polygon with `n` vertices is convex? -/
def ReadOp.needsConvex (n : Nat) : ReadOp K → Prop
  | .isConvex | .isSimple | .centroid => True
  | .tangents _ => n > 20
  | .boundingBox | .contains _ => False

/-- One reading thread among others. -/
theorem ok_read {s0 : Shared K} (op : ReadOp K) (hc : s0.obj.convex ≠ none ∨ (¬ op.needsConvex s0.obj.verts.length ∧ ¬ cen))
    (hcen : op = .centroid → cen) : OkFrom eps True cen s0 (fun a => a = op.answer eps s0.view ∨
      (cen ∧ (∃ p, op = .contains p) ∧ a = op.answer eps s0.view.getCentroid.2)) (op.thread eps) := by
  have hcv : s0.view.convex = s0.obj.convex := rfl
  have known : op.needsConvex s0.obj.verts.length → s0.obj.convex ≠ none := fun h => hc.resolve_right fun k => k.1 h
  match op with
  | .isConvex =>
    have k := known trivial
    refine OkFrom.bind (ok_isConvex k) fun b hb => ok_done (.inl ?_)
    subst hb
    change ReadAns.flag (.ok _) = ReadAns.flag (.ok _)
    unfold Polygon.isConvex
    rw [hcv]
    cases h' : s0.obj.convex with
    | none => exact absurd h' k
    | some b => rfl
  | .isSimple =>
    have k := known trivial
    refine OkFrom.bind (ok_isSimple trivial k) fun b hb => ok_done (.inl ?_)
    subst hb
    change ReadAns.flag (.ok _) = ReadAns.flag (.ok _)
    rw [(simple_val (s := s0.view) k).1]; rfl
  | .centroid =>
    have k := known trivial
    refine OkFrom.bind (ok_getCentroid trivial (hcen rfl) k) fun b hb => ok_done (.inl ?_)
    subst hb
    change ReadAns.point _ = ReadAns.point _
    rw [getCentroid_val (s := s0.view) k, getCentroid_val k]; rfl
  | .boundingBox =>
    refine OkFrom.bind ok_boundingBox fun b hb => ok_done (.inl ?_)
    subst hb
    change ReadAns.box _ = ReadAns.box _
    unfold Polygon.boundingBox
    have h1 : s0.view.bbox = s0.obj.bbox := rfl
    have h2 : s0.view.verts = s0.obj.verts := rfl
    rw [h1, h2]
    cases s0.obj.bbox with
    | some b => rfl
    | none => cases Box.fromPoints s0.obj.verts <;> rfl
  | .contains p =>
    refine OkFrom.bind (ok_contains p) fun b hb => ok_done ?_
    obtain ⟨s, hs, rfl⟩ := hb
    rcases hs.contains (hc.imp id And.right) p with h | ⟨h1, h2⟩
    · exact .inl (congrArg ReadAns.flag h)
    · exact .inr ⟨h1, ⟨p, rfl⟩, congrArg ReadAns.flag h2⟩
  | .tangents p =>
    have k : s0.obj.convex ≠ none ∨ ¬ s0.obj.verts.length > 20 := by
      by_cases h : s0.obj.verts.length > 20
      · exact .inl (known h)
      · exact .inr h
    refine OkFrom.bind (ok_tangents k p) fun b hb => ok_done (.inl ?_)
    subst hb
    rfl

end Planar
