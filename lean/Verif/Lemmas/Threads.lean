import Mathlib.Tactic.Ring
import Verif.Model.Threads
/- Threads that read one polygon: a thread on its own, and rely-guarantee reasoning for any interleaving. -/
set_option linter.unusedSectionVars false
namespace Planar

namespace Thread
variable {σ α β : Type}

theorem bind_eq (t : Thread σ α) (k : α → Thread σ β) : (t >>= k) = t.bind k := rfl
theorem pure_eq (a : α) : (pure a : Thread σ α) = .done a := rfl

@[simp] theorem done_bind (a : α) (k : α → Thread σ β) : (Thread.done a).bind k = k a := rfl
@[simp] theorem act_bind (w : σ → σ) (n : σ → Thread σ α) (k : α → Thread σ β) :
    (Thread.act w n).bind k = .act w fun s => (n s).bind k := rfl

theorem alone_bind (t : Thread σ α) (k : α → Thread σ β) (s : σ) :
    (t.bind k).alone s = (k (t.alone s).1).alone (t.alone s).2 := by
  induction t generalizing s with
  | done a => rfl
  | act w n ih => exact ih s (w s)

/-- Whatever the other threads do within `R`, the thread stays within `R` and ends with a result of which `P` holds. `s` is
the state it has seen last. -/
def Safe (R : σ → σ → Prop) (P : α → Prop) : Thread σ α → σ → Prop
  | .done a, _ => P a
  | .act w n, s => ∀ s', R s s' → R s' (w s') ∧ (n s').Safe R P (w s')

theorem Safe.mono {R : σ → σ → Prop} (htr : ∀ a b c, R a b → R b c → R a c) {P : α → Prop} {t : Thread σ α} {s s' : σ}
    (h : t.Safe R P s) (hR : R s s') : t.Safe R P s' := by
  cases t with
  | done a => exact h
  | act w n => exact fun s'' hs => h s'' (htr _ _ _ hR hs)

theorem Safe.imp {R : σ → σ → Prop} {P Q : α → Prop} {t : Thread σ α} {s : σ} (h : t.Safe R P s) (hPQ : ∀ a, P a → Q a) :
    t.Safe R Q s := by
  induction t generalizing s with
  | done a => exact hPQ a h
  | act w n ih => exact fun s' hs => ⟨(h s' hs).1, ih s' (h s' hs).2⟩

theorem Safe.bind {R : σ → σ → Prop} (hrefl : ∀ a, R a a) (htr : ∀ a b c, R a b → R b c → R a c) {P : α → Prop}
    {Q : β → Prop} {k : α → Thread σ β} (t : Thread σ α) (s : σ) (h : t.Safe R P s)
    (hk : ∀ a s', R s s' → P a → (k a).Safe R Q s') : (t.bind k).Safe R Q s := by
  induction t generalizing s with
  | done a => exact hk a s (hrefl s) h
  | act w n ih =>
    intro s' hs
    obtain ⟨h1, h2⟩ := h s' hs
    exact ⟨h1, ih s' (w s') h2 fun a s'' hs'' => hk a s'' (htr _ _ _ hs (htr _ _ _ h1 hs''))⟩

theorem Safe.alone {R : σ → σ → Prop} (hrefl : ∀ a, R a a) {P : α → Prop} (t : Thread σ α) (s : σ) (h : t.Safe R P s) :
    P (t.alone s).1 := by
  induction t generalizing s with
  | done a => exact h
  | act w n ih => exact ih s (w s) (h s (hrefl s)).2

end Thread

namespace System
variable {σ α : Type}

/-- All threads are safe. -/
structure AllSafe (R : σ → σ → Prop) (P : Nat → α → Prop) (s0 : σ) (S : System σ α) : Prop where
  rel : R s0 S.shared
  safe : ∀ i (t : Thread σ α), S.threads[i]? = some t → t.Safe R (P i) S.shared

theorem AllSafe.step {R : σ → σ → Prop} (htr : ∀ a b c, R a b → R b c → R a c) (hrefl : ∀ a, R a a)
    {P : Nat → α → Prop} {s0 : σ} {S : System σ α} (h : AllSafe R P s0 S) (i : Nat) : AllSafe R P s0 (S.step i) := by
  unfold System.step
  cases ht : S.threads[i]? with
  | none => exact h
  | some t =>
    cases t with
    | done a => exact h
    | act w n =>
      obtain ⟨h1, h2⟩ := h.safe i _ ht S.shared (hrefl _)
      refine ⟨htr _ _ _ h.rel h1, ?_⟩
      intro j t hj
      simp only at hj ⊢
      rw [List.getElem?_set] at hj
      split_ifs at hj with hij hlt
      · subst hij; cases hj; exact h2
      · exact (h.safe j t hj).mono htr h1

theorem AllSafe.run {R : σ → σ → Prop} (htr : ∀ a b c, R a b → R b c → R a c) (hrefl : ∀ a, R a a)
    {P : Nat → α → Prop} {s0 : σ} (sched : List Nat) {S : System σ α} (h : AllSafe R P s0 S) :
    AllSafe R P s0 (S.run sched) := by
  unfold System.run
  induction sched generalizing S with
  | nil => exact h
  | cons i sched ih => exact ih (h.step htr hrefl i)

theorem AllSafe.result {R : σ → σ → Prop} {P : Nat → α → Prop} {s0 : σ} {S : System σ α} (h : AllSafe R P s0 S) {i : Nat}
    {a : α} (hr : S.result i = some a) : P i a := by
  unfold System.result at hr
  cases ht : S.threads[i]? with
  | none => rw [ht] at hr; cases hr
  | some t =>
    rw [ht] at hr
    cases t with
    | done b => cases hr; exact h.safe i _ ht
    | act w n => cases hr

end System

variable {K : Type} [Add K] [Sub K] [Mul K] [Div K] [Zero K] [One K] [BEq K] [LT K] [LE K] [DecidableLT K] [DecidableLE K]

namespace Shared

/-- The references lead to lists. -/
def Fits (s : Shared K) : Prop := ∀ r, s.refs = some r → r.1 < s.lists.length ∧ r.2 < s.lists.length

theorem of_view (s : Polygon K) : (Shared.of s).view = s := by
  cases s with
  | mk vs c sm yp d dg b ce m m2 n n2 t =>
    cases yp with
    | none => rfl
    | some lr => rfl

theorem of_fits (s : Polygon K) : (Shared.of s).Fits := by
  intro r hr
  unfold Shared.of at hr ⊢
  cases h : s.yPolylines with
  | none => rw [h] at hr; cases hr
  | some lr => rw [h] at hr; cases hr; simp

end Shared

open Threaded

theorem raw_split (verts : List (Vec2 K)) :
    Polygon.splitYPolylines verts = (let r := rawPolylines verts;
      if r.2.2 then (Polygon.upward r.1, Polygon.upward r.2.1) else (Polygon.upward r.2.1, Polygon.upward r.1)) := by
  unfold Polygon.splitYPolylines rawPolylines
  simp only
  split_ifs <;> first | rfl | (exfalso; simp_all; done) | (exfalso; simp_all; omega)

/-- What a thread does on its own. -/
structure Solo {α : Type} (t : Thread (Shared K) α) (f : Polygon K → α × Polygon K) : Prop where
  ans : ∀ s : Shared K, s.Fits → (t.alone s).1 = (f s.view).1
  view : ∀ s : Shared K, s.Fits → (t.alone s).2.view = (f s.view).2
  fits : ∀ s : Shared K, s.Fits → (t.alone s).2.Fits

theorem Solo.bind {α β : Type} {t : Thread (Shared K) α} {f : Polygon K → α × Polygon K} {k : α → Thread (Shared K) β}
    {g : α → Polygon K → β × Polygon K} (h : Solo t f) (hk : ∀ a, Solo (k a) (g a)) :
    Solo (t.bind k) fun s => g (f s).1 (f s).2 := by
  refine ⟨fun s hs => ?_, fun s hs => ?_, fun s hs => ?_⟩ <;> rw [Thread.alone_bind]
  · rw [(hk _).ans _ (h.fits s hs), h.ans s hs, h.view s hs]
  · rw [(hk _).view _ (h.fits s hs), h.ans s hs, h.view s hs]
  · exact (hk _).fits _ (h.fits s hs)

theorem Solo.congr {α : Type} {t : Thread (Shared K) α} {f g : Polygon K → α × Polygon K} (h : Solo t f)
    (hfg : ∀ s, f s = g s) : Solo t g := by
  have : f = g := funext hfg
  rwa [this] at h

theorem solo_done {α : Type} (a : α) : Solo (.done a : Thread (Shared K) α) fun s => (a, s) :=
  ⟨fun _ _ => rfl, fun _ _ => rfl, fun _ h => h⟩

/-- An attribute other than `_y_polylines`. -/
theorem solo_attr {α : Type} (f : Polygon K → α) (hf : ∀ s y, f { s with yPolylines := y } = f s) :
    Solo (attr f) fun s => (f s, s) :=
  ⟨fun s _ => (hf s.obj _).symm, fun _ _ => rfl, fun _ h => h⟩

theorem solo_setAttr (f : Polygon K → Polygon K) (hf : ∀ s y, f { s with yPolylines := y } = { f s with yPolylines := y }) :
    Solo (setAttr f) fun s => ((), f s) :=
  ⟨fun s _ => rfl, fun s _ => (hf s.obj _).symm, fun _ h => h⟩

theorem solo_split : Solo (split (K := K)) fun s => ((), { s with yPolylines := some (Polygon.splitYPolylines s.verts) }) := by
  have hv : ∀ s : Shared K, s.Fits → ((split (K := K)).alone s).2.view =
      { s.view with yPolylines := some (Polygon.splitYPolylines s.view.verts) } ∧ ((split (K := K)).alone s).2.Fits := by
    intro s hs
    have hverts : s.view.verts = s.obj.verts := rfl
    rw [hverts, raw_split]
    obtain ⟨pl1, pl2, b, hr⟩ : ∃ p1 p2 b, rawPolylines s.obj.verts = (p1, p2, b) := ⟨_, _, _, rfl⟩
    unfold split
    simp only [Thread.bind_eq, attr, Thread.read, Thread.act_bind, Thread.done_bind, Thread.alone, id, hr, reverseList, Thread.write]
    unfold Shared.Fits Shared.view Shared.list
    cases b <;> simp
  exact ⟨fun _ _ => rfl, fun s hs => (hv s hs).1, fun s hs => (hv s hs).2⟩

theorem solo_classify : Solo (classify (K := K)) fun s => ((), s.classify) := by
  have hv : ∀ s : Shared K, s.Fits → ((classify (K := K)).alone s).2.view = s.view.classify ∧
      ((classify (K := K)).alone s).2.Fits := by
    intro s hs
    have hverts : s.view.verts = s.obj.verts := rfl
    unfold classify Polygon.classify
    rw [hverts]
    obtain ⟨dc, sg, n, cv, hr⟩ : ∃ a b c d, Polygon.classifyRun s.obj.verts = ⟨a, b, c, d⟩ := ⟨_, _, _, _, rfl⟩
    simp only [Thread.bind_eq, Thread.pure_eq, attr, setAttr, Thread.write, Thread.read, Thread.act_bind, Thread.done_bind, Thread.alone, id, hr]
    have key := fun t : Shared K => fun ht : t.Fits => And.intro ((solo_split (K := K)).view t ht) ((solo_split (K := K)).fits t ht)
    by_cases hd : dc ≤ 2 <;> by_cases hg : (n == 0 || sg == 0) = true <;> cases cv <;>
      simp only [hd, hg, Bool.not_false, Bool.not_true, if_true, if_false, Bool.false_eq_true, not_true, not_false_eq_true, Thread.act_bind, Thread.done_bind,
        Thread.alone, id, Bool.and_true, Bool.and_false, Bool.true_and, Bool.false_and, reduceCtorEq, Option.some.injEq, Bool.true_eq_false] <;>
      first
      | exact ⟨rfl, hs⟩
      | exact key _ hs
  exact ⟨fun _ _ => rfl, fun s hs => (hv s hs).1, fun s hs => (hv s hs).2⟩

/-- Attributes that are read. -/
theorem solo_verts : Solo (attr (K := K) Polygon.verts) fun s => (s.verts, s) := solo_attr _ fun _ _ => rfl
theorem solo_convex : Solo (attr (K := K) Polygon.convex) fun s => (s.convex, s) := solo_attr _ fun _ _ => rfl
theorem solo_simple : Solo (attr (K := K) Polygon.simple) fun s => (s.simple, s) := solo_attr _ fun _ _ => rfl
theorem solo_centroid : Solo (attr (K := K) Polygon.centroid) fun s => (s.centroid, s) := solo_attr _ fun _ _ => rfl
theorem solo_bbox : Solo (attr (K := K) Polygon.bbox) fun s => (s.bbox, s) := solo_attr _ fun _ _ => rfl
theorem solo_tri : Solo (attr (K := K) Polygon.triTest) fun s => (s.triTest, s) := solo_attr _ fun _ _ => rfl
theorem solo_dupe : Solo (attr (K := K) Polygon.dupeVerts) fun s => (s.dupeVerts, s) := solo_attr _ fun _ _ => rfl
theorem solo_min : Solo (attr (K := K) Polygon.minR2) fun s => (s.minR2, s) := solo_attr _ fun _ _ => rfl
theorem solo_max : Solo (attr (K := K) Polygon.maxR2) fun s => (s.maxR2, s) := solo_attr _ fun _ _ => rfl

/-- A branch. -/
theorem Solo.ite {α : Type} {c : Prop} [Decidable c] {t u : Thread (Shared K) α} {f g : Polygon K → α × Polygon K}
    (ht : Solo t f) (hu : Solo u g) : Solo (if c then t else u) fun s => if c then f s else g s := by
  by_cases hc : c
  · simp only [hc, if_true]; exact ht
  · simp only [hc, if_false]; exact hu

theorem classify_convex (s : Polygon K) : s.classify.convex ≠ none := by
  unfold Polygon.classify
  simp only
  split_ifs <;> simp

theorem solo_isConvex : Solo (isConvex (K := K)) Polygon.isConvex := by
  have h1 : Solo (isConvex (K := K)) _ := solo_convex.bind fun c => Solo.ite (c := c = none)
    (solo_classify.bind fun _ => solo_convex.bind fun c => solo_done (c.getD false))
    (solo_convex.bind fun c => solo_done (c.getD false))
  refine h1.congr fun s => ?_
  unfold Polygon.isConvex
  cases h : s.convex with
  | none => simp
  | some c => simp [h]

theorem solo_isSimple : Solo (isSimple (K := K)) Polygon.isSimple := by
  have fin : Solo (attr (K := K) Polygon.simple >>= fun b => pure (b.getD false)) _ := solo_simple.bind fun b => solo_done (b.getD false)
  have chk : Solo (attr (K := K) Polygon.simple >>= fun b =>
      if b = none then attr Polygon.verts >>= fun verts => setAttr (fun o => { o with simple := some (Polygon.checkSimple verts) }) >>= fun _ =>
        attr Polygon.simple >>= fun b => pure (b.getD false)
      else attr Polygon.simple >>= fun b => pure (b.getD false)) _ :=
    solo_simple.bind fun b => Solo.ite (solo_verts.bind fun verts => (solo_setAttr _ fun _ _ => rfl).bind fun _ => fin) fin
  have h1 : Solo (isSimple (K := K)) _ := solo_simple.bind fun b => Solo.ite (c := b = none)
    (solo_convex.bind fun c => Solo.ite (c := c = none) (solo_classify.bind fun _ => chk) chk) fin
  refine h1.congr fun s => ?_
  unfold Polygon.isSimple
  cases h : s.simple with
  | some c => simp [h]
  | none =>
    cases h2 : s.convex with
    | none =>
      cases h3 : s.classify.simple with
      | none => simp [h3]
      | some b => simp [h3]
    | some c => simp [h, h2]

theorem solo_getCentroid : Solo (getCentroid (K := K)) Polygon.getCentroid := by
  have e : getCentroid (K := K) = (attr Polygon.centroid).bind fun c => match c with
      | some c => .done (.ok c)
      | none => (isSimple (K := K)).bind fun b => if b then (attr Polygon.verts).bind fun verts =>
          (match Polygon.computeCentroid verts with
          | .error e => .done (.error e)
          | .ok c => (setAttr fun o => { o with centroid := some (some c) }).bind fun _ => (attr Polygon.centroid).bind fun c => .done (.ok (c.getD none)))
        else (setAttr fun o => { o with centroid := some none }).bind fun _ => (attr Polygon.centroid).bind fun c => .done (.ok (c.getD none)) := rfl
  rw [e]
  have fin : ∀ c : Option (Vec2 K), Solo ((setAttr (K := K) fun o => { o with centroid := some c }).bind fun _ =>
      (attr Polygon.centroid).bind fun c => Thread.done (Except.ok (ε := PyErr) (c.getD none))) fun s => (.ok c, { s with centroid := some c }) := by
    intro c
    exact (solo_setAttr (fun o => { o with centroid := some c }) fun _ _ => rfl).bind fun _ => solo_centroid.bind fun c => solo_done _
  refine (solo_centroid.bind (β := Py (Option (Vec2 K))) (g := fun c s => match c with
    | some c => (.ok c, s)
    | none => let r := s.isSimple; let s := r.2
      if r.1 then match Polygon.computeCentroid s.verts with
        | .error e => (.error e, s)
        | .ok c => (.ok (some c), { s with centroid := some (some c) })
      else (.ok none, { s with centroid := some none })) fun c => ?_).congr fun s => ?_
  · cases c with
    | some c => exact solo_done _
    | none =>
      refine (solo_isSimple.bind (β := Py (Option (Vec2 K))) (g := fun b s => if b then match Polygon.computeCentroid s.verts with
        | .error e => (.error e, s)
        | .ok c => (.ok (some c), { s with centroid := some (some c) })
        else (.ok none, { s with centroid := some none })) fun b => ?_)
      cases b with
      | false => exact fin none
      | true =>
        refine solo_verts.bind (β := Py (Option (Vec2 K))) (g := fun verts s => match Polygon.computeCentroid verts with
          | .error e => (.error e, s)
          | .ok c => (.ok (some c), { s with centroid := some (some c) })) fun verts => ?_
        cases Polygon.computeCentroid verts with
        | error e => exact solo_done _
        | ok c => exact fin (some c)
  · unfold Polygon.getCentroid
    cases s.centroid <;> rfl

theorem solo_boundingBox : Solo (boundingBox (K := K)) Polygon.boundingBox := by
  have fin : Solo (boundingBox.finish (K := K)) fun s => ((match s.bbox with | some b => .ok b | none => .error .typeError), s) := by
    refine solo_bbox.bind (β := Py (Box K)) (g := fun b s => ((match b with | some b => .ok b | none => .error .typeError), s)) fun b => ?_
    cases b <;> exact solo_done _
  refine (solo_bbox.bind (β := Py (Box K)) (g := fun b s => match b with
    | some _ => ((match s.bbox with | some b => .ok b | none => .error .typeError), s)
    | none => match Box.fromPoints s.verts with
      | .error e => (.error e, s)
      | .ok b => (.ok b, { s with bbox := some b })) fun b => ?_).congr fun s => ?_
  · cases b with
    | some b => exact fin
    | none =>
      refine solo_verts.bind (β := Py (Box K)) (g := fun verts s => match Box.fromPoints verts with
        | .error e => (.error e, s)
        | .ok b => (.ok b, { s with bbox := some b })) fun verts => ?_
      cases Box.fromPoints verts with
      | error e => exact solo_done _
      | ok b => exact (solo_setAttr (fun o => { o with bbox := some b }) fun _ _ => rfl).bind fun _ => fin
  · unfold Polygon.boundingBox
    cases h : s.bbox with
    | none => rfl
    | some b => simp only [h]

theorem solo_pnpTriangle (eps : K) (p : PyPoint K) : Solo (pnpTriangle eps p) fun s => s.pnpTriangle eps p := by
  refine (solo_tri.bind (β := Py Bool) (g := fun c s => match c with
    | some c => (Polygon.TriClosure.run c p, s)
    | none => match Polygon.triangleClosure eps s.verts with
      | .error e => (.error e, s)
      | .ok none => (.ok false, s)
      | .ok (some c) => (Polygon.TriClosure.run c p, { s with triTest := some c })) fun c => ?_).congr fun s => ?_
  · cases c with
    | some c => exact solo_done _
    | none =>
      refine solo_verts.bind (β := Py Bool) (g := fun verts s => match Polygon.triangleClosure eps verts with
        | .error e => (.error e, s)
        | .ok none => (.ok false, s)
        | .ok (some c) => (Polygon.TriClosure.run c p, { s with triTest := some c })) fun verts => ?_
      cases Polygon.triangleClosure eps verts with
      | error e => exact solo_done _
      | ok c =>
        cases c with
        | none => exact solo_done _
        | some c => exact (solo_setAttr (fun o => { o with triTest := some c }) fun _ _ => rfl).bind fun _ => solo_done _
  · rfl

/-- The test with the y-monotone polylines, from the contents of the lists. -/
theorem pnpY_alone (s : Shared K) (l r : Nat) (hr : s.refs = some (l, r)) (p : Vec2 K) :
    (pnpYMonotone p).alone s = (Polygon.pnpYMonotone (s.list l, s.list r) p, s) := by
  unfold pnpYMonotone Polygon.pnpYMonotone
  simp only [Thread.bind_eq, Thread.pure_eq, Thread.read, Thread.act_bind, Thread.done_bind, Thread.alone, id, hr, listAt]
  split_ifs with h1
  · rfl
  · simp only [leftOfEdge, bind, Except.bind, pure, Except.pure, Thread.alone, id]
    cases pyGet (s.list l) ((Polygon.bisectRight (s.list l) p.y : Int) - 1) with
    | error e => rfl
    | ok v0 =>
      cases pyGet (s.list l) (Polygon.bisectRight (s.list l) p.y : Int) with
      | error e => rfl
      | ok v1 =>
        simp only
        by_cases hc : (v1.2 - v0.2) * (p.y - v0.1) - (p.x - v0.2) * (v1.1 - v0.1) > 0
        · simp only [hc, decide_true, if_true]; rfl
        · simp only [hc, decide_false, if_false]; rfl

theorem solo_radial (p : PyPoint K) : Solo (radialTest p) fun s => ((match s.centroid with
    | some (some c) =>
      let d2 := (c - p.toVec).length2
      if (match s.minR2 with | some r => decide (d2 < r) | none => false) then .ok (some true)
      else if (match s.maxR2 with | some r => decide (d2 > r) | none => false) then .ok (some false)
      else .ok none
    | _ => .error .typeError), s) := by
  refine (solo_centroid.bind (β := Py (Option Bool)) (g := fun c s => ((match c with
    | some (some c) =>
      let d2 := (c - p.toVec).length2
      if (match s.minR2 with | some r => decide (d2 < r) | none => false) then .ok (some true)
      else if (match s.maxR2 with | some r => decide (d2 > r) | none => false) then .ok (some false)
      else .ok none
    | _ => .error .typeError), s)) fun c => ?_).congr fun s => rfl
  match c with
  | none => exact solo_done _
  | some none => exact solo_done _
  | some (some c) =>
    refine (solo_min.bind fun lo => Solo.ite (solo_done _) (solo_max.bind fun hi => Solo.ite (solo_done _) (solo_done _))).congr fun s => ?_
    cases h1 : s.minR2 <;> cases h2 : s.maxR2 <;> simp only [h1, h2] <;> split_ifs <;> rfl

theorem solo_rest (sides : Nat) (p : PyPoint K) : Solo (containsRest sides p) fun s => match s.yPolylines with
    | some pls => (Polygon.pnpYMonotone pls p.toVec, s)
    | none =>
      if sides = 4 then (.ok (Polygon.pnpWinding s.verts p.toVec), s)
      else match s.boundingBox with
        | (.error e, s) => (.error e, s)
        | (.ok b, s) =>
          if b.containsPoint p.toVec then (.ok (Polygon.pnpWinding s.verts p.toVec), s)
          else (.ok false, s) := by
  have key : Solo (if sides = 4 then (attr (K := K) Polygon.verts).bind fun verts => .done (.ok (Polygon.pnpWinding verts p.toVec))
      else (boundingBox (K := K)).bind fun r => match r with
        | .error e => .done (.error e)
        | .ok b => if b.containsPoint p.toVec then (attr Polygon.verts).bind fun verts => .done (.ok (Polygon.pnpWinding verts p.toVec))
          else .done (.ok false) : Thread (Shared K) (Py Bool)) _ :=
    Solo.ite (solo_verts.bind fun _ => solo_done _) (solo_boundingBox.bind (β := Py Bool) (g := fun r s => match r with
      | .error e => (.error e, s)
      | .ok b => if b.containsPoint p.toVec then (.ok (Polygon.pnpWinding s.verts p.toVec), s) else (.ok false, s)) fun r => by
        cases r with
        | error e => exact solo_done _
        | ok b => exact Solo.ite (solo_verts.bind fun _ => solo_done _) (solo_done _))
  have hsplit : ∀ s : Shared K, s.refs = none → (containsRest sides p).alone s =
      (if sides = 4 then (attr (K := K) Polygon.verts).bind fun verts => .done (.ok (Polygon.pnpWinding verts p.toVec))
      else (boundingBox (K := K)).bind fun r => match r with
        | .error e => .done (.error e)
        | .ok b => if b.containsPoint p.toVec then (attr Polygon.verts).bind fun verts => .done (.ok (Polygon.pnpWinding verts p.toVec))
          else .done (.ok false) : Thread (Shared K) (Py Bool)).alone s := by
    intro s hs
    unfold containsRest
    simp only [Thread.bind_eq, Thread.read, Thread.act_bind, Thread.done_bind, Thread.alone, id, hs, Option.isSome_none, Bool.false_eq_true, if_false]
    rfl
  have hsome : ∀ s : Shared K, ∀ l r, s.refs = some (l, r) → (containsRest sides p).alone s =
      (Polygon.pnpYMonotone (s.list l, s.list r) p.toVec, s) := by
    intro s l r hs
    rw [← pnpY_alone s l r hs]
    unfold containsRest
    simp only [Thread.bind_eq, Thread.read, Thread.act_bind, Thread.done_bind, Thread.alone, id, hs, Option.isSome_some, if_true]
  have hy : ∀ s : Shared K, s.view.yPolylines = s.refs.map fun r => (s.list r.1, s.list r.2) := fun _ => rfl
  refine ⟨fun s hs => ?_, fun s hs => ?_, fun s hs => ?_⟩
  · cases hr : s.refs with
    | none =>
      rw [hsplit s hr, key.ans s hs, hy, hr]
      simp only [Option.map_none]
      generalize s.view.boundingBox = x
      obtain ⟨r, s'⟩ := x
      cases r <;> rfl
    | some lr => rw [hsome s _ _ hr, hy, hr]; rfl
  · cases hr : s.refs with
    | none =>
      rw [hsplit s hr, key.view s hs, hy, hr]
      simp only [Option.map_none]
      generalize s.view.boundingBox = x
      obtain ⟨r, s'⟩ := x
      cases r <;> rfl
    | some lr => rw [hsome s _ _ hr, hy, hr]; rfl
  · cases hr : s.refs with
    | none => rw [hsplit s hr]; exact key.fits s hs
    | some lr => rw [hsome s _ _ hr]; exact hs

theorem solo_contains (eps : K) (p : PyPoint K) : Solo (containsPoint eps p) fun s => s.containsPoint eps p := by
  have h : Solo (containsPoint eps p) _ := solo_verts.bind fun verts => Solo.ite (c := verts.length = 3) (solo_pnpTriangle eps p)
    (solo_centroid.bind fun cen => Solo.ite (c := cen.isSome ∧ verts.length > 4)
      ((solo_radial p).bind (β := Py Bool) (g := fun r s => match r with
        | .error e => (.error e, s)
        | .ok (some b) => (.ok b, s)
        | .ok none => match s.yPolylines with
          | some pls => (Polygon.pnpYMonotone pls p.toVec, s)
          | none =>
            if verts.length = 4 then (.ok (Polygon.pnpWinding s.verts p.toVec), s)
            else match s.boundingBox with
              | (.error e, s) => (.error e, s)
              | (.ok b, s) =>
                if b.containsPoint p.toVec then (.ok (Polygon.pnpWinding s.verts p.toVec), s)
                else (.ok false, s)) fun r => by
        match r with
        | .error e => exact solo_done _
        | .ok (some b) => exact solo_done _
        | .ok none => exact solo_rest _ p)
      (solo_rest _ p))
  refine h.congr fun s => ?_
  unfold Polygon.containsPoint
  simp only
  by_cases h3 : s.verts.length = 3
  · simp only [h3, if_true]
  · simp only [h3, if_false]
    cases hc : s.centroid with
    | none =>
      simp only [Option.isSome_none, Bool.false_eq_true, false_and, if_false]
      rfl
    | some c =>
      by_cases h4 : s.verts.length > 4
      · simp only [h4, Option.isSome_some, and_self, if_true]
        cases c with
        | none => rfl
        | some c =>
          simp only
          cases h1 : s.minR2 <;> cases h2 : s.maxR2 <;> simp only <;> split_ifs <;> rfl
      · simp only [h4, and_false, if_false]
        rfl

theorem solo_tangents (p : Vec2 K) : Solo (tangentsToPoint p) fun s => s.tangentsToPoint p := by
  have h : Solo (tangentsToPoint p) _ := solo_verts.bind fun verts => Solo.ite (c := verts.length > 20)
    (solo_isConvex.bind fun b => Solo.ite (c := b = true) (solo_dupe.bind fun d => Solo.ite (c := (!(d.getD true)) = true) (solo_done _) (solo_done _))
      (solo_done _)) (solo_done _)
  have hv : ∀ s : Polygon K, s.isConvex.2.verts = s.verts := by
    intro s
    unfold Polygon.isConvex
    cases s.convex with
    | some b => rfl
    | none => simp only [Polygon.classify]; split_ifs <;> rfl
  refine h.congr fun s => ?_
  unfold Polygon.tangentsToPoint
  simp only [hv]
  by_cases h1 : s.verts.length > 20
  · simp only [h1, if_true]
    cases s.isConvex.1 <;> cases s.isConvex.2.dupeVerts.getD true <;> rfl
  · simp only [h1, if_false]

theorem solo_map {α β : Type} {t : Thread (Shared K) α} {f : Polygon K → α × Polygon K} (h : Solo t f) (g : α → β) :
    Solo (t.bind fun a => .done (g a)) fun s => (g (f s).1, (f s).2) := h.bind fun _ => solo_done _

theorem solo_read (eps : K) (op : ReadOp K) : Solo (op.thread eps) fun s => (op.answer eps s, op.toOp.run eps s) := by
  cases op with
  | isConvex => exact solo_map solo_isConvex _
  | isSimple => exact solo_map solo_isSimple _
  | centroid => exact solo_map solo_getCentroid _
  | boundingBox => exact solo_map solo_boundingBox _
  | contains p => exact solo_map (solo_contains eps p) _
  | tangents p => exact solo_map (solo_tangents p) _

end Planar
