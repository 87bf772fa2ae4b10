import Verif.Lemmas.Writers
import Verif.Lemmas.Sort
/- Reading and assigning threads together: what both keep. -/
set_option linter.unusedSectionVars false
namespace Planar
open Spec

namespace Thread
variable {K : Type}

/-- Every write keeps the vertices and the closure of the triangle test. -/
def Quiet {α : Type} : Thread (Shared K) α → Prop
  | .done _ => True
  | .act w n => (∀ s, (w s).obj.verts = s.obj.verts ∧ (w s).obj.triTest = s.obj.triTest) ∧ ∀ s, (n s).Quiet

theorem Quiet.bind {α β : Type} {t : Thread (Shared K) α} {k : α → Thread (Shared K) β} (h : t.Quiet) (hk : ∀ a, (k a).Quiet) :
    (t >>= k).Quiet := by
  induction t with
  | done a => exact hk a
  | act w n ih => exact ⟨h.1, fun s => ih s (h.2 s)⟩

theorem Quiet.pure {α : Type} (a : α) : (Pure.pure a : Thread (Shared K) α).Quiet := trivial
theorem Quiet.read {α : Type} (f : Shared K → α) : (Thread.read f).Quiet := ⟨fun _ => ⟨rfl, rfl⟩, fun _ => trivial⟩
theorem Quiet.attr {α : Type} (f : Polygon K → α) : (attr f).Quiet := ⟨fun _ => ⟨rfl, rfl⟩, fun _ => trivial⟩
theorem Quiet.setAttr (f : Polygon K → Polygon K) (h1 : ∀ s, (f s).verts = s.verts) (h2 : ∀ s, (f s).triTest = s.triTest) :
    (setAttr f).Quiet := ⟨fun s => ⟨h1 s.obj, h2 s.obj⟩, fun _ => trivial⟩

end Thread

namespace Mix
open Thread Threaded
variable {K : Type} [LinearOrder K] [Add K] [Sub K] [Mul K] [Div K] [Neg K] [Zero K] [One K] [RoundedArith K]

macro "quiet" : tactic => `(tactic| repeat' (first
  | exact Quiet.pure _ | exact Quiet.read _ | exact Quiet.attr _ | exact Quiet.setAttr _ (fun _ => rfl) (fun _ => rfl)
  | assumption | (refine Quiet.bind ?_ fun _ => ?_) | (intro _) | split | dsimp only))

theorem q_split : (split (K := K)).Quiet := by
  unfold split
  refine Quiet.bind (Quiet.attr _) fun v => Quiet.bind ⟨fun _ => ⟨rfl, rfl⟩, fun _ => trivial⟩ fun n =>
    Quiet.bind ⟨fun _ => ⟨rfl, rfl⟩, fun _ => trivial⟩ fun _ => ⟨fun _ => ⟨rfl, rfl⟩, fun _ => trivial⟩

theorem q_classify : (classify (K := K)).Quiet := by
  have := q_split (K := K)
  unfold classify
  quiet

theorem q_isConvex : (Threaded.isConvex (K := K)).Quiet := by
  have := q_classify (K := K)
  unfold Threaded.isConvex
  quiet

theorem q_isSimple : (Threaded.isSimple (K := K)).Quiet := by
  have := q_classify (K := K)
  unfold Threaded.isSimple
  quiet

theorem q_centroid : (Threaded.getCentroid (K := K)).Quiet := by
  have := q_isSimple (K := K)
  unfold Threaded.getCentroid
  quiet

theorem q_finish : (Threaded.boundingBox.finish (K := K)).Quiet := by
  unfold Threaded.boundingBox.finish
  quiet

theorem q_box : (Threaded.boundingBox (K := K)).Quiet := by
  have := q_finish (K := K)
  unfold Threaded.boundingBox
  quiet

theorem q_y (p : Vec2 K) : (Threaded.pnpYMonotone p).Quiet := by
  unfold Threaded.pnpYMonotone Threaded.listAt
  quiet

theorem q_rest (n : Nat) (p : PyPoint K) : (Threaded.containsRest n p).Quiet := by
  have := q_box (K := K)
  have := q_y p.toVec
  unfold Threaded.containsRest
  quiet

theorem q_radial (p : PyPoint K) : (Threaded.radialTest p).Quiet := by
  unfold Threaded.radialTest
  quiet

theorem q_tangents (p : Vec2 K) : (Threaded.tangentsToPoint p).Quiet := by
  have := q_isConvex (K := K)
  unfold Threaded.tangentsToPoint
  quiet

/-- What reading and assigning threads do together. -/
structure Keeps (N : Nat → Vec2 K → Prop) (s u : Shared K) : Prop where
  length : u.obj.verts.length = s.obj.verts.length
  verts : ∀ j x, u.obj.verts[j]? = some x → s.obj.verts[j]? = some x ∨ N j x
  tri : TriLong s.obj → TriLong u.obj

variable {N : Nat → Vec2 K → Prop}

theorem Keeps.refl (s : Shared K) : Keeps N s s := ⟨rfl, fun _ _ h => .inl h, id⟩
theorem Keeps.trans (s u w : Shared K) (h : Keeps N s u) (g : Keeps N u w) : Keeps N s w :=
  ⟨g.length.trans h.length, fun j x hx => by
    rcases g.verts j x hx with hx | hx
    · exact h.verts j x hx
    · exact .inr hx, fun k => g.tri (h.tri k)⟩

theorem keeps_same {s u : Shared K} (hv : u.obj.verts = s.obj.verts) (ht : u.obj.triTest = s.obj.triTest ∨ u.obj.triTest = none) :
    Keeps N s u := by
  refine ⟨by rw [hv], fun j x hx => .inl (by rw [← hv]; exact hx), fun h h3 => ?_⟩
  rcases ht with e | e
  · rw [e]; exact h (hv ▸ h3)
  · exact e

theorem Quiet.safe {α : Type} {t : Thread (Shared K) α} (h : t.Quiet) (s : Shared K) : t.Safe (Keeps N) (fun _ => True) s := by
  induction t generalizing s with
  | done a => trivial
  | act w n ih => exact fun u hu => ⟨keeps_same (h.1 u).1 (.inl (h.1 u).2), ih u (h.2 u) _⟩

theorem closure_three {eps : K} {vs : List (Vec2 K)} {c} (h : Polygon.triangleClosure eps vs = .ok (some c)) : vs.length = 3 := by
  unfold Polygon.triangleClosure at h
  have hlen : (pySorted Polygon.yxLt vs).length = vs.length := (pySorted_perm _ _).length_eq
  match hsort : pySorted Polygon.yxLt vs with
  | [] => rw [hsort] at h; cases h
  | [_] => rw [hsort] at h; cases h
  | [_, _] => rw [hsort] at h; cases h
  | [_, _, _] => rw [hsort] at hlen; exact hlen.symm
  | _ :: _ :: _ :: _ :: _ => rw [hsort] at h; cases h

theorem safe_triangle (eps : K) (p : PyPoint K) (s : Shared K) : (Threaded.pnpTriangle eps p).Safe (Keeps N) (fun _ => True) s := by
  unfold Threaded.pnpTriangle
  intro s1 h1
  refine ⟨Keeps.refl _, ?_⟩
  change Thread.Safe _ _ (match s1.obj.triTest with
    | some c => (Pure.pure (Polygon.TriClosure.run c p) : Thread (Shared K) (Py Bool))
    | none => _) s1
  cases s1.obj.triTest with
  | some c => exact trivial
  | none =>
    intro s2 h2
    refine ⟨Keeps.refl _, ?_⟩
    change Thread.Safe _ _ (match Polygon.triangleClosure eps s2.obj.verts with
      | .error e => (Pure.pure (.error e) : Thread (Shared K) (Py Bool))
      | .ok none => _
      | .ok (some c) => _) s2
    cases hc : Polygon.triangleClosure eps s2.obj.verts with
    | error e => exact trivial
    | ok o =>
      cases o with
      | none => exact trivial
      | some c =>
        intro s3 h3
        refine ⟨⟨rfl, fun j x hx => .inl hx, fun _ hl => ?_⟩, trivial⟩
        have := closure_three hc
        have e := h3.length
        have hl : 3 < s3.obj.verts.length := hl
        omega

theorem safe_contains (eps : K) (p : PyPoint K) (s : Shared K) : (Threaded.containsPoint eps p).Safe (Keeps N) (fun _ => True) s := by
  unfold Threaded.containsPoint
  refine Thread.Safe.bind Keeps.refl Keeps.trans _ _ (Quiet.safe (Quiet.attr _) s) fun v s1 h1 _ => ?_
  simp only
  split
  · exact safe_triangle eps p s1
  · refine Quiet.safe ?_ s1
    have := q_radial p
    have := q_rest v.length p
    quiet

theorem safe_read (eps : K) (op : ReadOp K) (s : Shared K) : (op.thread eps).Safe (Keeps N) (fun _ => True) s := by
  cases op with
  | isConvex => exact Quiet.safe (q_isConvex.bind fun _ => Quiet.pure _) s
  | isSimple => exact Quiet.safe (q_isSimple.bind fun _ => Quiet.pure _) s
  | centroid => exact Quiet.safe (q_centroid.bind fun _ => Quiet.pure _) s
  | boundingBox => exact Quiet.safe (q_box.bind fun _ => Quiet.pure _) s
  | contains p => exact Thread.Safe.bind Keeps.refl Keeps.trans _ _ (safe_contains eps p s) fun _ _ _ _ => trivial
  | tangents p => exact Quiet.safe ((q_tangents p).bind fun _ => Quiet.pure _) s

/-- Every write keeps the vertices, and keeps or deletes the closure. -/
def Calm {α : Type} : Thread (Polygon K) α → Prop
  | .done _ => True
  | .act w n => (∀ s, (w s).verts = s.verts ∧ ((w s).triTest = s.triTest ∨ (w s).triTest = none)) ∧ ∀ s, Calm (n s)

theorem Calm.bind {α β : Type} {t : Thread (Polygon K) α} {k : α → Thread (Polygon K) β} (h : Calm t) (hk : ∀ a, Calm (k a)) :
    Calm (t.bind k) := by
  induction t with
  | done a => exact hk a
  | act w n ih => exact ⟨h.1, fun s => ih s (h.2 s)⟩

theorem calm_read {α : Type} (f : Polygon K → α) : Calm (Thread.read f) := ⟨fun _ => ⟨rfl, .inl rfl⟩, fun _ => trivial⟩

theorem calm_rest : Calm (Writers.clearRest (K := K)) :=
  ⟨fun _ => ⟨rfl, .inl rfl⟩, fun _ => ⟨fun _ => ⟨rfl, .inl rfl⟩, fun _ => ⟨fun _ => ⟨rfl, .inl rfl⟩, fun _ => ⟨fun _ => ⟨rfl, .inl rfl⟩,
    fun _ => ⟨fun _ => ⟨rfl, .inl rfl⟩, fun _ => ⟨fun _ => ⟨rfl, .inl rfl⟩, fun _ => ⟨fun _ => ⟨rfl, .inl rfl⟩, fun _ =>
      ⟨fun _ => ⟨rfl, .inl rfl⟩, fun _ => ⟨fun _ => ⟨rfl, .inl rfl⟩, fun _ => trivial⟩⟩⟩⟩⟩⟩⟩⟩⟩

theorem calm_clear : Calm (Writers.clear (K := K)) := by
  unfold Writers.clear
  refine (calm_read _).bind fun n => ?_
  split
  · exact ⟨fun _ => ⟨rfl, .inl rfl⟩, fun _ => ⟨fun _ => ⟨rfl, .inl rfl⟩, fun _ => calm_rest⟩⟩
  · refine ⟨fun _ => ⟨rfl, .inl rfl⟩, fun _ => ⟨fun _ => ⟨rfl, .inl rfl⟩, fun _ => ?_⟩⟩
    change Calm (Writers.deleteClosure Writers.clearRest)
    refine Calm.bind (calm_read _) fun b => ?_
    split
    · refine ⟨fun _ => ⟨rfl, .inr rfl⟩, fun s => ?_⟩
      simp only
      split
      · exact calm_rest
      · trivial
    · exact calm_rest

theorem Calm.safe {α β : Type} (g : α → β) {t : Thread (Polygon K) α} (h : Calm t) (s : Shared K) :
    (t.onShared g).Safe (Keeps N) (fun _ => True) s := by
  induction t generalizing s with
  | done a => trivial
  | act w n ih => exact fun u hu => ⟨keeps_same (h.1 u.view).1 (h.1 u.view).2, ih u.view (h.2 u.view) _⟩

/-- Binding commutes with the lift. -/
theorem onShared_bind {α β γ : Type} (g : β → γ) (t : Thread (Polygon K) α) (k : α → Thread (Polygon K) β) :
    (t.bind k).onShared g = (t.onShared id).bind fun a => (k a).onShared g := by
  induction t with
  | done a => rfl
  | act w n ih =>
    simp only [Thread.bind, Thread.onShared]
    congr 1
    funext s
    exact ih s.view

theorem onShared_map {α β : Type} (g : α → β) (t : Thread (Polygon K) α) : t.onShared g = (t.onShared id).bind fun a => .done (g a) := by
  induction t with
  | done a => rfl
  | act w n ih =>
    simp only [Thread.bind, Thread.onShared]
    congr 1
    funext s
    exact ih s.view

theorem safe_item (i : Int) (v : Vec2 K) (s : Shared K) (hv : ∀ j, pyIndex s.obj.verts.length i = some j → N j v) :
    ((Writers.setItem i v).onShared id).Safe (Keeps N) (fun _ => True) s := by
  intro u hu
  have hl := hu.length
  have hvw : u.view.verts = u.obj.verts := rfl
  have hwt : u.view.triTest = u.obj.triTest := rfl
  unfold pySet
  simp only [hvw, hl]
  cases hi : pyIndex s.obj.verts.length i with
  | none => exact ⟨keeps_same rfl (.inl rfl), trivial⟩
  | some j =>
    refine ⟨⟨by simp [Shared.put], ?_, ?_⟩, calm_clear.safe id _⟩
    · intro k x hx
      have hx : (u.obj.verts.set j v.copy)[k]? = some x := hx
      rw [Vec2.copy_fl, List.getElem?_set] at hx
      split_ifs at hx with h1 h2
      · cases hx; subst h1; exact .inr (hv j hi)
      · exact .inl hx
    · intro h h3
      have h3 : 3 < (u.obj.verts.set j v.copy).length := h3
      exact h (by simpa using h3)

theorem safe_loop (T : Affine K) (s0 : Shared K) (hT : ∀ j x, (s0.obj.verts[j]? = some x ∨ N j x) → N j (T.apply x)) (count i : Nat)
    (s : Shared K) (h0 : Keeps N s0 s) : ((Writers.loop T i count).onShared id).Safe (Keeps N) (fun _ => True) s := by
  induction count generalizing i s with
  | zero => trivial
  | succ count ih =>
    unfold Writers.loop
    rw [onShared_bind]
    intro u hu
    have h0' := Keeps.trans _ _ _ h0 hu
    refine ⟨keeps_same rfl (.inl rfl), ?_⟩
    change Thread.Safe _ _ ((match u.view.verts[i]? with | none => _ | some v => _ : Thread (Polygon K) WriteAns).onShared id) _
    have hobj : (u.put (id u.view)).obj.verts = u.obj.verts := rfl
    cases hx : u.view.verts[i]? with
    | none => exact trivial
    | some v =>
      simp only
      rw [onShared_bind]
      have hx : u.obj.verts[i]? = some v := hx
      have hlt : i < u.obj.verts.length := (List.getElem?_eq_some_iff.mp hx).1
      have hk : Keeps N s0 (u.put (id u.view)) := Keeps.trans _ _ _ h0' (keeps_same rfl (.inl rfl))
      refine Thread.Safe.bind Keeps.refl Keeps.trans _ _ (safe_item _ _ _ fun j hj => ?_) fun r w hw _ => ?_
      · have hpi : pyIndex u.obj.verts.length (i : Int) = some i := by unfold pyIndex; simp [hlt]
        rw [hobj, hpi] at hj
        cases hj
        exact hT i v (h0'.verts i v hx)
      · have hw' := Keeps.trans _ _ _ hk hw
        split
        · exact ih _ w hw'
        · trivial

theorem safe_write (op : WriteOp K) (s : Shared K)
    (hop : match op with
      | .setItem i v => ∀ j, pyIndex s.obj.verts.length i = some j → N j v
      | .imul T => ∀ j x, (s.obj.verts[j]? = some x ∨ N j x) → N j (T.apply x)) {β : Type} (g : WriteAns → β) :
    (op.thread.onShared g).Safe (Keeps N) (fun _ => True) s := by
  rw [onShared_map]
  refine Thread.Safe.bind (P := fun _ => True) Keeps.refl Keeps.trans _ _ ?_ fun _ _ _ _ => trivial
  cases op with
  | setItem i v => exact safe_item i v s hop
  | imul T =>
    change ((Writers.imul T).onShared id).Safe _ _ s
    unfold Writers.imul
    rw [onShared_bind]
    intro u hu
    refine ⟨keeps_same rfl (.inl rfl), ?_⟩
    change Thread.Safe _ _ (((if (T != Affine.identity) = true then Writers.loop T 0 u.view.verts.length else .done .ok).bind
      fun r => if r = .ok then Writers.clear else .done r).onShared id) _
    rw [onShared_bind]
    refine Thread.Safe.bind (P := fun _ => True) Keeps.refl Keeps.trans _ _ ?_ fun r w _ _ => ?_
    · split
      · exact safe_loop T s hop _ 0 _ (Keeps.trans _ _ _ hu (keeps_same rfl (.inl rfl)))
      · trivial
    · split
      · exact calm_clear.safe id _
      · trivial

end Mix
end Planar
