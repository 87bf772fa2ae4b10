import Verif.Lemmas.ThreadsRely
/- Reading threads of any kind on any polygon: how many steps they take, and what stays true whatever they do. -/
set_option linter.unusedSectionVars false
namespace Planar
open Threaded

namespace Thread
variable {σ α β : Type}

/-- The thread finishes after at most `k` accesses, whatever it reads. -/
def Within : Thread σ α → Nat → Prop
  | .done _, _ => True
  | .act _ _, 0 => False
  | .act _ n, k + 1 => ∀ s, (n s).Within k

theorem Within.le {t : Thread σ α} {j k : Nat} (h : t.Within j) (hjk : j ≤ k) : t.Within k := by
  induction t generalizing j k with
  | done a => trivial
  | act w n ih =>
    cases j with
    | zero => exact h.elim
    | succ j =>
      cases k with
      | zero => omega
      | succ k => exact fun s => ih s (h s) (by omega)

theorem Within.bind {t : Thread σ α} {k : α → Thread σ β} {i j m : Nat} (h : t.Within i) (hk : ∀ a, (k a).Within j)
    (hm : i + j ≤ m) : (t.bind k).Within m := by
  induction t generalizing i m with
  | done a => exact (hk a).le (by omega)
  | act w n ih =>
    cases i with
    | zero => exact h.elim
    | succ i =>
      cases m with
      | zero => omega
      | succ m => exact fun s => ih s (h s) (by omega)

theorem within_done (a : α) (k : Nat) : (Thread.done a : Thread σ α).Within k := trivial

theorem within_read (f : σ → α) : (Thread.read f).Within 1 := fun _ => trivial

theorem within_write (f : σ → σ) : (Thread.write f).Within 1 := fun _ => trivial

end Thread

namespace System
variable {σ α : Type}

theorem step_other (S : System σ α) (i j : Nat) (h : j ≠ i) : (S.step j).threads[i]? = S.threads[i]? := by
  unfold System.step
  cases ht : S.threads[j]? with
  | none => rfl
  | some u =>
    cases u with
    | done a => rfl
    | act w n => simp only [List.getElem?_set, h, if_false]

theorem step_self (S : System σ α) (i : Nat) (w : σ → σ) (n : σ → Thread σ α) (h : S.threads[i]? = some (.act w n)) :
    (S.step i).threads[i]? = some (n S.shared) := by
  unfold System.step
  rw [h]
  have : i < S.threads.length := by
    by_contra hlt
    rw [List.getElem?_eq_none (by omega)] at h
    cases h
  simp [List.getElem?_set, this]

theorem step_done (S : System σ α) (i : Nat) (a : α) (h : S.threads[i]? = some (.done a)) : S.step i = S := by
  unfold System.step
  rw [h]

theorem result_of_within (sched : List Nat) (S : System σ α) (i k : Nat) (t : Thread σ α) (h : S.threads[i]? = some t)
    (hw : t.Within k) (hc : k ≤ sched.count i) : ∃ a, (S.run sched).result i = some a := by
  induction sched generalizing S k t with
  | nil =>
    have : k = 0 := by simpa using hc
    subst this
    cases t with
    | done a => exact ⟨a, by unfold System.run System.result; simp only [List.foldl_nil]; rw [h]⟩
    | act w n => exact hw.elim
  | cons j sched ih =>
    change ∃ a, ((S.step j).run sched).result i = some a
    by_cases hj : j = i
    · subst hj
      cases t with
      | done a => exact ih _ 0 (.done a) (by rw [S.step_done j a h]; exact h) trivial (Nat.zero_le _)
      | act w n =>
        cases k with
        | zero => exact hw.elim
        | succ k => exact ih _ k _ (S.step_self j w n h) (hw _) (by rw [List.count_cons_self] at hc; omega)
    · exact ih _ k t (by rw [S.step_other i j hj]; exact h) hw (by rwa [List.count_cons_of_ne (by simpa using hj)] at hc)

end System

variable {K : Type} [Add K] [Sub K] [Mul K] [Div K] [Zero K] [One K] [BEq K] [LT K] [LE K] [DecidableLT K] [DecidableLE K]

theorem within_attr {α : Type} (f : Polygon K → α) : (attr f).Within 1 := fun _ => trivial
theorem within_setAttr (f : Polygon K → Polygon K) : (setAttr f).Within 1 := fun _ => trivial
theorem within_list (i : Nat) : (listAt (K := K) i).Within 1 := fun _ => trivial

theorem within_ite {σ α : Type} {c : Prop} [Decidable c] {t u : Thread σ α} {k : Nat} (h1 : t.Within k) (h2 : u.Within k) :
    (if c then t else u).Within k := by split <;> assumption

theorem within_step {σ α β : Type} {t : Thread σ α} {k : α → Thread σ β} {m : Nat} (h : t.Within 1) (hk : ∀ a, (k a).Within m) :
    (t >>= k).Within (m + 1) := h.bind hk (by omega)

theorem within_pure {σ α : Type} {a : α} {k : Nat} : (pure a : Thread σ α).Within k := trivial

theorem within_split : (split (K := K)).Within 4 :=
  (within_attr _).bind (j := 3) (fun _ => fun _ => fun _ => fun _ => trivial) (by omega)

/-- Peel accesses off a thread program. -/
macro "peel" : tactic => `(tactic| repeat (first
  | exact within_pure | exact within_split | exact Thread.Within.le within_split (by omega)
  | exact within_attr _ | exact within_setAttr _
  | refine within_ite ?_ ?_
  | (refine within_step (within_attr _) fun _ => ?_) | (refine within_step (within_setAttr _) fun _ => ?_)
  | (refine within_step (within_list _) fun _ => ?_) | (refine within_step (Thread.within_read _) fun _ => ?_)
  | (simp only)))

theorem within_classify : (classify (K := K)).Within 14 := by
  unfold classify
  peel

theorem within_isConvex : (isConvex (K := K)).Within 16 := by
  refine within_step (within_attr _) fun c => ?_
  refine within_ite ?_ ?_
  · exact within_classify.bind (j := 1) (fun _ => by peel) (by omega)
  · peel

theorem within_isSimple : (isSimple (K := K)).Within 20 := by
  refine within_step (within_attr _) fun b => ?_
  refine within_ite ?_ ?_
  · refine within_step (within_attr _) fun c => ?_
    refine within_ite ?_ ?_
    · exact within_classify.bind (j := 4) (fun _ => by peel) (by omega)
    · peel
  · peel

theorem within_getCentroid : (getCentroid (K := K)).Within 24 := by
  refine within_step (within_attr _) fun c => ?_
  cases c with
  | some c => exact within_pure
  | none =>
    refine within_isSimple.bind (j := 3) (fun b => ?_) (by omega)
    refine within_ite ?_ ?_
    · refine within_step (within_attr _) fun verts => ?_
      cases Polygon.computeCentroid verts with
      | error e => exact within_pure
      | ok c => peel
    · peel

theorem within_boundingBox : (boundingBox (K := K)).Within 4 := by
  have fin : (boundingBox.finish (K := K)).Within 1 := by
    refine within_step (within_attr _) fun b => ?_
    cases b <;> exact within_pure
  refine within_step (within_attr _) fun b => ?_
  cases b with
  | some b => exact fin.le (by omega)
  | none =>
    refine within_step (within_attr _) fun verts => ?_
    cases Box.fromPoints verts with
    | error e => exact within_pure
    | ok b => exact within_step (within_setAttr _) fun _ => fin

theorem within_pnpTriangle (eps : K) (p : PyPoint K) : (pnpTriangle eps p).Within 3 := by
  refine within_step (within_attr _) fun c => ?_
  cases c with
  | some c => exact within_pure
  | none =>
    refine within_step (within_attr _) fun verts => ?_
    match Polygon.triangleClosure eps verts with
    | .error e => exact within_pure
    | .ok none => exact within_pure
    | .ok (some c) => exact within_step (within_setAttr _) fun _ => within_pure

theorem within_pnpY (p : Vec2 K) : (pnpYMonotone p).Within 8 := by
  refine within_step (Thread.within_read _) fun r => ?_
  match r with
  | none => exact within_pure
  | some (l, r) =>
    refine within_step (within_list l) fun pl => ?_
    refine within_step (within_list l) fun pl' => ?_
    refine within_ite within_pure ?_
    refine within_step (within_list l) fun pl => ?_
    refine within_step (within_list l) fun pl => ?_
    simp only
    split
    · exact within_pure
    · exact within_pure
    · refine within_step (within_list r) fun pl => ?_
      refine within_step (within_list r) fun pl => ?_
      refine within_step (within_list r) fun pl => ?_
      exact within_pure

theorem within_radial (p : PyPoint K) : (radialTest p).Within 3 := by
  refine within_step (within_attr _) fun c => ?_
  match c with
  | none => exact within_pure
  | some none => exact within_pure
  | some (some c) => peel

theorem within_rest (n : Nat) (p : PyPoint K) : (containsRest n p).Within 9 := by
  refine within_step (Thread.within_read _) fun r => ?_
  refine within_ite (within_pnpY _) ?_
  refine within_ite (by peel) ?_
  refine within_boundingBox.bind (j := 1) (fun b => ?_) (by omega)
  cases b with
  | error e => exact within_pure
  | ok b => peel

theorem within_contains (eps : K) (p : PyPoint K) : (containsPoint eps p).Within 14 := by
  refine within_step (within_attr _) fun verts => ?_
  refine within_ite ((within_pnpTriangle eps p).le (by omega)) ?_
  refine within_step (within_attr _) fun c => ?_
  refine within_ite ?_ ((within_rest _ p).le (by omega))
  refine (within_radial p).bind (j := 9) (fun r => ?_) (by omega)
  match r with
  | .error e => exact within_pure
  | .ok (some b) => exact within_pure
  | .ok none => exact within_rest _ p

theorem within_tangents (p : Vec2 K) : (tangentsToPoint p).Within 18 := by
  refine within_step (within_attr _) fun verts => ?_
  refine within_ite ?_ within_pure
  refine within_isConvex.bind (j := 1) (fun b => ?_) (by omega)
  peel

/-- No reading operation takes more than 24 accesses, whatever it reads. -/
theorem within_op (eps : K) (op : ReadOp K) : (op.thread eps).Within 24 := by
  match op with
  | .isConvex => exact within_isConvex.bind (j := 0) (fun _ => within_pure) (by omega)
  | .isSimple => exact within_isSimple.bind (j := 0) (fun _ => within_pure) (by omega)
  | .centroid => exact within_getCentroid.bind (j := 0) (fun _ => within_pure) (by omega)
  | .boundingBox => exact within_boundingBox.bind (j := 0) (fun _ => within_pure) (by omega)
  | .contains p => exact (within_contains eps p).bind (j := 0) (fun _ => within_pure) (by omega)
  | .tangents p => exact (within_tangents p).bind (j := 0) (fun _ => within_pure) (by omega)

/-- The classification of polygon.py:232-279 says convex. -/
def Cvx (verts : List (Vec2 K)) : Prop := (Polygon.classifyRun verts).convex = true ∧ (Polygon.classifyRun verts).dirChanges ≤ 2

/-- What reading threads of any kind may do. -/
structure Loose (eps : K) (s s' : Shared K) : Prop where
  verts : s'.obj.verts = s.obj.verts
  bbox : s'.obj.bbox = s.obj.bbox ∨ (s.obj.bbox = none ∧ ∃ b, Box.fromPoints s.obj.verts = .ok b ∧ s'.obj.bbox = some b)
  tri : s'.obj.triTest = s.obj.triTest ∨
    (s.obj.triTest = none ∧ ∃ c, Polygon.triangleClosure eps s.obj.verts = .ok (some c) ∧ s'.obj.triTest = some c)
  conv : Cvx s.obj.verts → s.obj.convex ≠ some false → s'.obj.convex ≠ some false
  keep : s.obj.convex ≠ none → s'.obj.convex ≠ none

variable {eps : K}

theorem Loose.refl (s : Shared K) : Loose eps s s := ⟨rfl, .inl rfl, .inl rfl, fun _ h => h, id⟩

theorem Loose.trans {s t u : Shared K} (h : Loose eps s t) (g : Loose eps t u) : Loose eps s u := by
  refine ⟨g.verts.trans h.verts, ?_, ?_, fun k hk => g.conv (h.verts ▸ k) (h.conv k hk), fun k => g.keep (h.keep k)⟩
  · rcases g.bbox with g' | ⟨g2, b, g3, g4⟩
    · rw [g']; exact h.bbox
    · rcases h.bbox with h' | ⟨h2, c, h3, h4⟩
      · exact .inr ⟨h' ▸ g2, b, by rw [← h.verts]; exact g3, g4⟩
      · rw [h4] at g2; cases g2
  · rcases g.tri with g' | ⟨g2, b, g3, g4⟩
    · rw [g']; exact h.tri
    · rcases h.tri with h' | ⟨h2, c, h3, h4⟩
      · exact .inr ⟨h' ▸ g2, b, by rw [← h.verts]; exact g3, g4⟩
      · rw [h4] at g2; cases g2

/-- A thread that others can live with, and that ends with a result of which `P` holds, started after `s0`. -/
abbrev Fine (eps : K) {α : Type} (s0 : Shared K) (P : α → Prop) (t : Thread (Shared K) α) : Prop :=
  ∀ s, Loose eps s0 s → t.Safe (Loose eps) P s

theorem Fine.bind {α β : Type} {s0 : Shared K} {P : α → Prop} {Q : β → Prop} {t : Thread (Shared K) α}
    {k : α → Thread (Shared K) β} (h : Fine eps s0 P t) (hk : ∀ a, P a → Fine eps s0 Q (k a)) : Fine eps s0 Q (t >>= k) := fun s hs =>
  Thread.Safe.bind Loose.refl (fun _ _ _ => Loose.trans) t s (h s hs) fun a s' hs' hP => hk a hP s' (hs.trans hs')

theorem fine_pure {α : Type} {s0 : Shared K} {P : α → Prop} {a : α} (h : P a) : Fine eps s0 P (pure a) := fun _ _ => h

theorem fine_attr {α : Type} {s0 : Shared K} {P : α → Prop} {f : Polygon K → α} (h : ∀ s, Loose eps s0 s → P (f s.obj)) :
    Fine eps s0 P (attr f) := fun _ hs s' hs' => ⟨Loose.refl _, h s' (hs.trans hs')⟩

theorem fine_read {α : Type} {s0 : Shared K} {f : Shared K → α} : Fine eps s0 (fun _ => True) (Thread.read f) :=
  fun _ _ _ _ => ⟨Loose.refl _, trivial⟩

theorem fine_verts {s0 : Shared K} : Fine eps s0 (fun v => v = s0.obj.verts) (attr Polygon.verts) := fine_attr fun _ h => h.verts

theorem fine_any {α : Type} {s0 : Shared K} {f : Polygon K → α} : Fine eps s0 (fun _ => True) (attr f) := fine_attr fun _ _ => trivial

/-- A write that leaves these attributes alone. -/
theorem fine_set {s0 : Shared K} {f : Polygon K → Polygon K} (h1 : ∀ o, (f o).verts = o.verts) (h2 : ∀ o, (f o).bbox = o.bbox)
    (h3 : ∀ o, (f o).triTest = o.triTest) (h4 : ∀ o, (f o).convex = o.convex) : Fine eps s0 (fun _ => True) (setAttr f) :=
  fun _ _ s' _ => ⟨⟨h1 _, .inl (h2 _), .inl (h3 _), fun _ h => by rw [h4]; exact h, fun h => by rw [h4]; exact h⟩, trivial⟩

theorem Fine.ite {α : Type} {s0 : Shared K} {P : α → Prop} {c : Prop} [Decidable c] {t u : Thread (Shared K) α}
    (h1 : c → Fine eps s0 P t) (h2 : ¬ c → Fine eps s0 P u) : Fine eps s0 P (if c then t else u) := by
  split
  · exact h1 ‹_›
  · exact h2 ‹_›

theorem fine_list {s0 : Shared K} (i : Nat) : Fine eps s0 (fun _ => True) (listAt i) := fine_read

theorem fine_split {s0 : Shared K} : Fine eps s0 (fun _ => True) (split (K := K)) := by
  have same : ∀ (s : Shared K) (l : List (List (K × K))) r, Loose eps s { s with lists := l, refs := r } := fun s l r =>
    ⟨rfl, .inl rfl, .inl rfl, fun _ h => h, id⟩
  refine Fine.bind fine_verts fun verts _ => ?_
  intro s _ s1 _
  exact ⟨same _ _ _, fun s2 _ => ⟨same _ _ s2.refs, fun s3 _ => ⟨same _ _ s3.refs, trivial⟩⟩⟩

/-- `_classify` after its first access. -/
def classifyTail (K : Type) [Add K] [Sub K] [Mul K] [Div K] [Zero K] [One K] [BEq K] [LT K] [LE K] [DecidableLT K]
    [DecidableLE K] : Thread (Shared K) Unit := do
  let verts ← attr Polygon.verts
  let r := Polygon.classifyRun verts
  if !r.convex then setAttr fun o => { o with convex := some false }
  if ¬ r.dirChanges ≤ 2 then setAttr fun o => { o with convex := some false }
  let c ← attr Polygon.convex
  setAttr fun o => { o with simple := if c = some true then some true else none }
  setAttr fun o => { o with degenerate := some (r.count == 0 || r.angleSign == 0) }
  let c ← attr Polygon.convex
  if c = some true then
    let d ← attr Polygon.degenerate
    if d = some false then
      setAttr fun o => { o with dupeVerts := some (decide (r.count < verts.length)) }
      split

theorem classify_eq : classify (K := K) = (setAttr fun o => { o with convex := some true }) >>= fun _ => classifyTail K := rfl

theorem fine_notConvex {s0 : Shared K} (h : ¬ Cvx s0.obj.verts) :
    Fine eps s0 (fun _ => True) (setAttr (K := K) fun o => { o with convex := some false }) :=
  fun _ hs s' hs' => ⟨⟨rfl, .inl rfl, .inl rfl, fun k => absurd ((hs.trans hs').verts ▸ k) h, fun _ => Option.some_ne_none _⟩, trivial⟩

theorem fine_convex {s0 : Shared K} : Fine eps s0 (fun _ => True) (setAttr (K := K) fun o => { o with convex := some true }) :=
  fun _ _ _ _ => ⟨⟨rfl, .inl rfl, .inl rfl, fun _ _ h => absurd (Option.some.inj h) (by decide), fun _ => Option.some_ne_none _⟩, trivial⟩

theorem fine_classifyTail {s0 : Shared K} : Fine eps s0 (fun _ => True) (classifyTail K) := by
  refine Fine.bind fine_verts fun verts hv => ?_
  subst hv
  have tail : Fine eps s0 (fun _ => True) (do
      let c ← attr (K := K) Polygon.convex
      setAttr fun o => { o with simple := if c = some true then some true else none }
      setAttr fun o => { o with degenerate := some ((Polygon.classifyRun s0.obj.verts).count == 0 || (Polygon.classifyRun s0.obj.verts).angleSign == 0) }
      let c ← attr Polygon.convex
      if c = some true then
        let d ← attr Polygon.degenerate
        if d = some false then
          setAttr fun o => { o with dupeVerts := some (decide ((Polygon.classifyRun s0.obj.verts).count < s0.obj.verts.length)) }
          split) := by
    refine Fine.bind fine_any fun c _ => ?_
    refine Fine.bind (fine_set (fun _ => rfl) (fun _ => rfl) (fun _ => rfl) (fun _ => rfl)) fun _ _ => ?_
    refine Fine.bind (fine_set (fun _ => rfl) (fun _ => rfl) (fun _ => rfl) (fun _ => rfl)) fun _ _ => ?_
    refine Fine.bind fine_any fun c _ => ?_
    refine Fine.ite (fun _ => ?_) fun _ => fine_pure trivial
    refine Fine.bind fine_any fun c _ => ?_
    refine Fine.ite (fun _ => ?_) fun _ => fine_pure trivial
    exact Fine.bind (fine_set (fun _ => rfl) (fun _ => rfl) (fun _ => rfl) (fun _ => rfl)) fun _ _ => fine_split
  have mid : Fine eps s0 (fun _ => True) (do
      if ¬ (Polygon.classifyRun s0.obj.verts).dirChanges ≤ 2 then setAttr (K := K) fun o => { o with convex := some false }
      let c ← attr (K := K) Polygon.convex
      setAttr fun o => { o with simple := if c = some true then some true else none }
      setAttr fun o => { o with degenerate := some ((Polygon.classifyRun s0.obj.verts).count == 0 || (Polygon.classifyRun s0.obj.verts).angleSign == 0) }
      let c ← attr Polygon.convex
      if c = some true then
        let d ← attr Polygon.degenerate
        if d = some false then
          setAttr fun o => { o with dupeVerts := some (decide ((Polygon.classifyRun s0.obj.verts).count < s0.obj.verts.length)) }
          split) :=
    Fine.ite (fun h => Fine.bind (fine_notConvex fun k => h k.2) fun _ _ => tail) fun _ => tail
  refine Fine.ite (fun h => Fine.bind (fine_notConvex fun k => ?_) fun _ _ => mid) fun _ => mid
  rw [k.1] at h
  cases h

theorem fine_classify {s0 : Shared K} : Fine eps s0 (fun _ => True) (classify (K := K)) := by
  rw [classify_eq]
  exact Fine.bind fine_convex fun _ _ => fine_classifyTail

/-- `is_convex` of a polygon classified convex. -/
theorem fine_isConvex {s0 : Shared K} : Fine eps s0 (fun b => Cvx s0.obj.verts → s0.obj.convex ≠ some false → b = true)
    (isConvex (K := K)) := by
  have fin : ∀ s, Loose eps s0 s → s.obj.convex ≠ none → (attr (K := K) Polygon.convex >>= fun c => pure (c.getD false)).Safe (Loose eps)
      (fun b => Cvx s0.obj.verts → s0.obj.convex ≠ some false → b = true) s := by
    intro s hs hn s' hs'
    refine ⟨Loose.refl _, fun k hk => ?_⟩
    change s'.obj.convex.getD false = true
    have h1 := (hs.trans hs').conv k hk
    have h2 := hs'.keep hn
    match h : s'.obj.convex with
    | none => exact absurd h h2
    | some true => rfl
    | some false => exact absurd h h1
  intro s hs s1 hs1
  refine ⟨Loose.refl _, ?_⟩
  have h1 := hs.trans hs1
  change Thread.Safe _ _ (if s1.obj.convex = none then _ else _) s1
  split_ifs with hn
  · intro s2 hs2
    have hg : Loose eps s2 { s2 with obj := { s2.obj with convex := some true } } :=
      ⟨rfl, .inl rfl, .inl rfl, fun _ _ h => absurd (Option.some.inj h) (by decide), fun _ => Option.some_ne_none _⟩
    refine ⟨hg, ?_⟩
    have h2 := (h1.trans hs2).trans hg
    refine Thread.Safe.bind Loose.refl (fun _ _ _ => Loose.trans) (classifyTail K) _ (fine_classifyTail _ (Loose.refl _)) fun _ s3 hs3 _ => ?_
    exact fin s3 (h2.trans hs3) (hs3.keep (Option.some_ne_none _))
  · exact fin s1 h1 hn

theorem fine_isSimple {s0 : Shared K} : Fine eps s0 (fun _ => True) (isSimple (K := K)) := by
  have fin : Fine eps s0 (fun _ => True) (attr (K := K) Polygon.simple >>= fun b => pure (b.getD false)) :=
    Fine.bind fine_any fun _ _ => fine_pure trivial
  have chk : Fine eps s0 (fun _ => True) (do
      let b ← attr (K := K) Polygon.simple
      if b = none then
        let verts ← attr Polygon.verts
        let v := Polygon.checkSimple verts
        setAttr fun o => { o with simple := some v }
      let b ← attr (K := K) Polygon.simple
      return b.getD false) :=
    Fine.bind fine_any fun _ _ => Fine.ite (fun _ => Fine.bind fine_verts fun _ _ => Fine.bind
      (fine_set (fun _ => rfl) (fun _ => rfl) (fun _ => rfl) (fun _ => rfl)) fun _ _ => fin) fun _ => fin
  exact Fine.bind fine_any fun _ _ => Fine.ite (fun _ => Fine.bind fine_any fun _ _ => Fine.ite
    (fun _ => Fine.bind fine_classify fun _ _ => chk) fun _ => chk) fun _ => fin

theorem fine_getCentroid {s0 : Shared K} : Fine eps s0 (fun _ => True) (getCentroid (K := K)) := by
  refine Fine.bind fine_any fun c _ => ?_
  cases c with
  | some c => exact fine_pure trivial
  | none =>
    refine Fine.bind fine_isSimple fun b _ => Fine.ite (fun _ => ?_) fun _ => ?_
    · refine Fine.bind fine_verts fun verts _ => ?_
      cases Polygon.computeCentroid verts with
      | error e => exact fine_pure trivial
      | ok c =>
        exact Fine.bind (fine_set (fun _ => rfl) (fun _ => rfl) (fun _ => rfl) (fun _ => rfl)) fun _ _ =>
          Fine.bind fine_any fun _ _ => fine_pure trivial
    · exact Fine.bind (fine_set (fun _ => rfl) (fun _ => rfl) (fun _ => rfl) (fun _ => rfl)) fun _ _ =>
          Fine.bind fine_any fun _ _ => fine_pure trivial

theorem Loose.box {s t : Shared K} (h : Loose eps s t) : t.obj.boundingBox.1 = s.obj.boundingBox.1 := by
  unfold Polygon.boundingBox
  rcases h.bbox with h' | ⟨h1, b, h2, h3⟩
  · rw [h', h.verts]
    cases s.obj.bbox with
    | some b => rfl
    | none => cases Box.fromPoints s.obj.verts <;> rfl
  · rw [h1, h3, h2]

theorem fine_boundingBox {s0 : Shared K} : Fine eps s0 (fun r => r = s0.obj.boundingBox.1) (boundingBox (K := K)) := by
  have fin : ∀ s, Loose eps s0 s → s.obj.bbox ≠ none →
      (boundingBox.finish (K := K)).Safe (Loose eps) (fun r => r = s0.obj.boundingBox.1) s := by
    intro s hs hn s' hs'
    refine ⟨Loose.refl _, ?_⟩
    rw [← (hs.trans hs').box]
    change Thread.Safe _ _ (match s'.obj.bbox with | some b => Thread.done (Except.ok b) | none => Thread.done (Except.error PyErr.typeError)) _
    unfold Polygon.boundingBox
    cases h : s'.obj.bbox with
    | some b => rfl
    | none =>
      exfalso
      rcases hs'.bbox with h' | ⟨h1, b, h2, h3⟩
      · rw [h'] at h; exact hn h
      · rw [h3] at h; cases h
  intro s hs s1 hs1
  refine ⟨Loose.refl _, ?_⟩
  have h1 := hs.trans hs1
  change Thread.Safe _ _ (match s1.obj.bbox with
      | some _ => boundingBox.finish
      | none => attr Polygon.verts >>= fun verts => (match Box.fromPoints verts with
        | .error e => pure (.error e)
        | .ok b => setAttr (fun o => { o with bbox := some b }) >>= fun _ => boundingBox.finish)) s1
  cases hb : s1.obj.bbox with
  | some b => exact fin s1 h1 (by rw [hb]; exact Option.some_ne_none _)
  | none =>
    intro s2 hs2
    refine ⟨Loose.refl _, ?_⟩
    have h2 := h1.trans hs2
    change Thread.Safe _ _ (match Box.fromPoints s2.obj.verts with
      | .error e => pure (.error e)
      | .ok b => setAttr (fun o => { o with bbox := some b }) >>= fun _ => boundingBox.finish) s2
    cases hf : Box.fromPoints s2.obj.verts with
    | error e =>
      change _ = _
      rw [← h1.box]
      rw [hs2.verts] at hf
      unfold Polygon.boundingBox
      rw [hb, hf]
    | ok b =>
      intro s3 hs3
      have h3 := h2.trans hs3
      have hg : Loose eps s3 { s3 with obj := { s3.obj with bbox := some b } } := by
        refine ⟨rfl, ?_, .inl rfl, fun _ h => h, id⟩
        rw [← hs3.verts] at hf
        rcases (hs2.trans hs3).bbox with h' | ⟨-, b', h', h''⟩
        · exact .inr ⟨h'.trans hb, b, hf, rfl⟩
        · left
          rw [h'']
          rw [hs3.verts, hs2.verts, h'] at hf
          cases hf; rfl
      exact ⟨hg, fin _ (h3.trans hg) (Option.some_ne_none _)⟩

theorem Loose.triangle {s t : Shared K} (h : Loose eps s t) (p : PyPoint K) :
    (t.obj.pnpTriangle eps p).1 = (s.obj.pnpTriangle eps p).1 := by
  unfold Polygon.pnpTriangle
  rcases h.tri with h' | ⟨h1, b, h2, h3⟩
  · rw [h', h.verts]
    cases s.obj.triTest with
    | some b => rfl
    | none =>
      cases Polygon.triangleClosure eps s.obj.verts with
      | error e => rfl
      | ok c => cases c <;> rfl
  · rw [h1, h3, h2]

theorem fine_pnpTriangle {s0 : Shared K} (p : PyPoint K) :
    Fine eps s0 (fun r => r = (s0.obj.pnpTriangle eps p).1) (pnpTriangle eps p) := by
  intro s hs s1 hs1
  refine ⟨Loose.refl _, ?_⟩
  have h1 := hs.trans hs1
  rw [← h1.triangle p]
  change Thread.Safe _ _ (match s1.obj.triTest with
      | some c => pure (Polygon.TriClosure.run c p)
      | none => attr Polygon.verts >>= fun verts => (match Polygon.triangleClosure eps verts with
        | .error e => pure (.error e)
        | .ok none => pure (.ok false)
        | .ok (some c) => setAttr (fun o => { o with triTest := some c }) >>= fun _ => pure (Polygon.TriClosure.run c p))) s1
  unfold Polygon.pnpTriangle
  cases hb : s1.obj.triTest with
  | some b => rfl
  | none =>
    intro s2 hs2
    refine ⟨Loose.refl _, ?_⟩
    change Thread.Safe _ _ (match Polygon.triangleClosure eps s2.obj.verts with
      | .error e => pure (.error e)
      | .ok none => pure (.ok false)
      | .ok (some c) => setAttr (fun o => { o with triTest := some c }) >>= fun _ => pure (Polygon.TriClosure.run c p)) s2
    rw [hs2.verts]
    cases hf : Polygon.triangleClosure eps s1.obj.verts with
    | error e => rfl
    | ok c =>
      cases c with
      | none => rfl
      | some c =>
        intro s3 hs3
        have h3 := hs2.trans hs3
        refine ⟨?_, rfl⟩
        refine ⟨rfl, .inl rfl, ?_, fun _ h => h, id⟩
        rcases h3.tri with h' | ⟨-, b', h', h''⟩
        · exact .inr ⟨h'.trans hb, c, by rw [h3.verts]; exact hf, rfl⟩
        · left
          rw [h'']
          rw [h'] at hf
          cases hf; rfl

theorem fine_pnpY {s0 : Shared K} (p : Vec2 K) : Fine eps s0 (fun _ => True) (pnpYMonotone p) := by
  refine Fine.bind fine_read fun r _ => ?_
  match r with
  | none => exact fine_pure trivial
  | some (l, r) =>
    refine Fine.bind (fine_list l) fun pl _ => Fine.bind (fine_list l) fun pl' _ => Fine.ite (fun _ => fine_pure trivial) fun _ => ?_
    refine Fine.bind (fine_list l) fun pl _ => Fine.bind (fine_list l) fun pl' _ => ?_
    simp only
    split
    · exact fine_pure trivial
    · exact fine_pure trivial
    · exact Fine.bind (fine_list r) fun _ _ => Fine.bind (fine_list r) fun _ _ => Fine.bind (fine_list r) fun _ _ => fine_pure trivial

theorem fine_rest {s0 : Shared K} (n : Nat) (p : PyPoint K) : Fine eps s0 (fun _ => True) (containsRest n p) := by
  refine Fine.bind fine_read fun r _ => Fine.ite (fun _ => fine_pnpY _) fun _ => Fine.ite (fun _ => ?_) fun _ => ?_
  · exact Fine.bind fine_verts fun _ _ => fine_pure trivial
  · refine Fine.bind fine_boundingBox fun b _ => ?_
    cases b with
    | error e => exact fine_pure trivial
    | ok b => exact Fine.ite (fun _ => Fine.bind fine_verts fun _ _ => fine_pure trivial) fun _ => fine_pure trivial

theorem fine_radial {s0 : Shared K} (p : PyPoint K) : Fine eps s0 (fun _ => True) (radialTest p) := by
  refine Fine.bind fine_any fun c _ => ?_
  match c with
  | none => exact fine_pure trivial
  | some none => exact fine_pure trivial
  | some (some c) =>
    exact Fine.bind fine_any fun _ _ => Fine.ite (fun _ => fine_pure trivial) fun _ =>
      Fine.bind fine_any fun _ _ => Fine.ite (fun _ => fine_pure trivial) fun _ => fine_pure trivial

theorem Fine.imp {α : Type} {s0 : Shared K} {P Q : α → Prop} {t : Thread (Shared K) α} (h : Fine eps s0 P t) (hPQ : ∀ a, P a → Q a) :
    Fine eps s0 Q t := fun s hs => (h s hs).imp hPQ

theorem fine_contains {s0 : Shared K} (p : PyPoint K) : Fine eps s0 (fun r => s0.obj.verts.length = 3 →
    r = (s0.view.containsPoint eps p).1) (containsPoint eps p) := by
  refine Fine.bind fine_verts fun verts hv => ?_
  subst hv
  refine Fine.ite (fun h3 => ?_) fun h3 => ?_
  · refine (fine_pnpTriangle p).imp fun r hr _ => ?_
    rw [hr, contains_of, if_pos (show s0.view.verts.length = 3 from h3), view_triangle]
  · refine Fine.bind fine_any fun c _ => Fine.ite (fun _ => ?_) fun _ => (fine_rest _ p).imp fun _ _ k => absurd k h3
    refine Fine.bind (fine_radial p) fun r _ => ?_
    match r with
    | .error e => exact fine_pure fun k => absurd k h3
    | .ok (some b) => exact fine_pure fun k => absurd k h3
    | .ok none => exact (fine_rest _ p).imp fun _ _ k => absurd k h3

theorem fine_tangents {s0 : Shared K} (p : Vec2 K) : Fine eps s0 (fun r => s0.obj.verts.length ≤ 20 →
    r = (s0.view.tangentsToPoint p).1) (tangentsToPoint p) := by
  refine Fine.bind fine_verts fun verts hv => ?_
  subst hv
  refine Fine.ite (fun h => ?_) fun h => fine_pure fun _ => ?_
  · refine Fine.bind fine_isConvex fun b _ => Fine.ite (fun _ => ?_) fun _ => fine_pure fun k => absurd k (by omega)
    exact Fine.bind fine_any fun d _ => Fine.ite (fun _ => fine_pure fun k => absurd k (by omega)) fun _ =>
      fine_pure fun k => absurd k (by omega)
  · unfold Polygon.tangentsToPoint
    rw [if_neg]
    · rfl
    · exact h

/-- One reading thread among any others. -/
theorem fine_read_op {s0 : Shared K} (op : ReadOp K) : Fine eps s0 (fun a => (match op with
      | .isConvex => Cvx s0.obj.verts ∧ s0.obj.convex ≠ some false
      | .isSimple | .centroid => False
      | .boundingBox => True
      | .contains _ => s0.obj.verts.length = 3
      | .tangents _ => s0.obj.verts.length ≤ 20) → a = op.answer eps s0.view) (op.thread eps) := by
  match op with
  | .isConvex =>
    refine Fine.bind fine_isConvex fun b hb => fine_pure fun k => ?_
    rw [hb k.1 k.2]
    change _ = ReadAns.flag (.ok s0.view.isConvex.1)
    have : s0.view.isConvex.1 = true := by
      unfold Polygon.isConvex
      have e : s0.view.convex = s0.obj.convex := rfl
      rw [e]
      match h : s0.obj.convex with
      | some true => rfl
      | some false => exact absurd h k.2
      | none =>
        have kv : Cvx s0.view.verts := k.1
        simp only [Polygon.classify, kv.1, kv.2, if_true, Bool.true_and]
        split_ifs <;> rfl
    rw [this]
  | .isSimple => exact Fine.bind fine_isSimple fun b _ => fine_pure fun k => k.elim
  | .centroid => exact Fine.bind fine_getCentroid fun b _ => fine_pure fun k => k.elim
  | .boundingBox =>
    refine Fine.bind fine_boundingBox fun b hb => fine_pure fun _ => ?_
    subst hb
    change ReadAns.box _ = ReadAns.box _
    unfold Polygon.boundingBox
    have h1 : s0.view.bbox = s0.obj.bbox := rfl
    have h2 : s0.view.verts = s0.obj.verts := rfl
    rw [h1, h2]
    cases s0.obj.bbox with
    | some b => rfl
    | none => cases Box.fromPoints s0.obj.verts <;> rfl
  | .contains p => exact Fine.bind (fine_contains p) fun b hb => fine_pure fun k => by rw [hb k]; rfl
  | .tangents p => exact Fine.bind (fine_tangents p) fun b hb => fine_pure fun k => by rw [hb k]; rfl

end Planar
