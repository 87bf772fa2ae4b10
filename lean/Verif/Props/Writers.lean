import Mathlib.Algebra.Order.Ring.Unbundled.Rat
import Mathlib.Algebra.Field.Rat
import Mathlib.Tactic.NormNum
import Verif.Lemmas.WritersMix
import Verif.Lemmas.WritersSettle
import Verif.Props.Interrupted
import Verif.Props.Seq
/- Property C98: assignments by several threads. -/
set_option linter.unusedSectionVars false
namespace Planar
open Spec Thread

section polygons
variable {K : Type} [LinearOrder K] [Add K] [Sub K] [Mul K] [Div K] [Neg K] [Zero K] [One K] [RoundedArith K]

theorem writers_clear_alone (s : Polygon K) : (Writers.clear (K := K)).alone s = (.ok, s.clearCached) := by
  unfold Writers.clear
  rw [Thread.alone_bind]
  simp only [Thread.read, Thread.alone, id]
  by_cases h : s.verts.length > 3
  · rw [if_pos h]
    simp [Writers.clearRest, Thread.write, Thread.alone, h, Polygon.clearCached, Polygon.cleared]
  · rw [if_neg h]
    cases ht : s.triTest <;>
      simp [Writers.clearRest, Writers.deleteClosure, Thread.read, Thread.write, Thread.alone, h, Polygon.clearCached, Polygon.cleared, ht]

/-- The answer of an assignment in the single-threaded model. -/
def WriteAns.toPy : WriteAns → Option (Py Unit)
  | .ok => some (.ok ())
  | .indexError => some (.error .indexError)
  | .keyError => none

theorem writers_item_alone (s : Polygon K) (i : Int) (v : Vec2 K) :
    ((Writers.setItem i v).alone s).1.toPy = some (s.setItem i v).1 ∧ ((Writers.setItem i v).alone s).2 = (s.setItem i v).2 := by
  unfold Writers.setItem Polygon.setItem pySet
  cases hi : pyIndex s.verts.length i with
  | none => simp only [Thread.alone, hi]; exact ⟨rfl, trivial⟩
  | some j => simp only [Thread.alone, hi, writers_clear_alone]; exact ⟨rfl, trivial⟩

theorem loop_alone (T : Affine K) (count i : Nat) (s : Polygon K) (h : i + count = s.verts.length) :
    (Writers.loop T i count).alone s = (.ok, ((Thread.each (Mutate.imulTurn T) i count).alone s).2) := by
  induction count generalizing i s with
  | zero => rfl
  | succ count ih =>
    have hi : i < s.verts.length := by omega
    have hcopy : (Vec2.mk' (s.verts[i].x * T.a + s.verts[i].y * T.d + T.c) (s.verts[i].x * T.b + s.verts[i].y * T.e + T.f)).copy
        = T.apply s.verts[i] := by rw [Vec2.copy_fl]; rfl
    have hset : (Writers.setItem (i : Int) (Vec2.mk' (s.verts[i].x * T.a + s.verts[i].y * T.d + T.c)
        (s.verts[i].x * T.b + s.verts[i].y * T.e + T.f))).alone s
        = (.ok, ({ s with verts := s.verts.set i (T.apply s.verts[i]) } : Polygon K).clearCached) := by
      unfold Writers.setItem pySet
      have hpi : pyIndex s.verts.length (i : Int) = some i := by unfold pyIndex; simp [hi]
      simp only [Thread.alone, hpi, hcopy, writers_clear_alone]
    unfold Writers.loop
    rw [Thread.alone_bind]
    simp only [Thread.read, Thread.alone, id, List.getElem?_eq_getElem hi]
    rw [Thread.alone_bind, hset]
    simp only [if_true]
    rw [ih (i + 1) _ (by simp [Polygon.clearCached, Polygon.cleared]; omega)]
    rw [show Thread.each (Mutate.imulTurn T) i (count + 1) =
      (Mutate.imulTurn T i).bind fun _ => Thread.each (Mutate.imulTurn T) (i + 1) count from rfl, Thread.alone_bind,
      Mutate.turn_alone T s i hi]

theorem writers_imul_alone (s : Polygon K) (T : Affine K) : (Writers.imul T).alone s = (.ok, s.imul T) := by
  have h := congrArg Prod.snd (imul_alone s T)
  unfold Mutate.imul at h
  simp only [Thread.bind_eq, Thread.alone_bind] at h
  unfold Writers.imul
  rw [Thread.alone_bind]
  simp only [Thread.read, Thread.alone, id] at h ⊢
  by_cases hT : (T != Affine.identity) = true
  · simp only [hT, if_true, Thread.alone_bind] at h ⊢
    rw [loop_alone T _ 0 s (by omega)]
    simp only [if_true]
    rw [writers_clear_alone]
    rw [Mutate.clear_alone] at h
    rw [← h]
  · simp only [hT] at h ⊢
    have h : (Mutate.clear.alone s).2 = s.imul T := h
    change (Writers.clear.alone s) = _
    rw [writers_clear_alone, ← h, Mutate.clear_alone]

/-- **C98** the threads are the operations: one that is alone returns what the operation returns and leaves what it leaves. -/
theorem C98_alone (s : Polygon K) :
    (∀ i v, ((Writers.setItem i v).alone s).1.toPy = some (s.setItem i v).1 ∧
      ((Writers.setItem i v).alone s).2 = (s.setItem i v).2) ∧
    (∀ T, (Writers.imul T).alone s = (.ok, s.imul T)) := ⟨writers_item_alone s, writers_imul_alone s⟩

/-- What holds when thread `k` has ended. -/
def WriteEnd (ops : List (WriteOp K)) (s : Polygon K) (k : Nat) (r : WriteAns) (u : Polygon K) : Prop :=
  ∀ op, ops[k]? = some op →
    (¬ op.Valid s.verts.length ∧ r = .indexError) ∨
    (op.Valid s.verts.length ∧ ((r = .ok ∧ u = .fromPoints u.verts ∧ ∀ j, op.Writes s.verts.length j → ∀ x, u.verts[j]? = some x →
        NewValue ops s.verts j x) ∨ (r = .keyError ∧ s.triTest ≠ none ∧ s.verts.length ≤ 3 ∧
        ∀ i v, op = .setItem i v → ∀ j, op.Writes s.verts.length j → ∀ x, u.verts[j]? = some x → NewValue ops s.verts j x)))

theorem writers_run (s : Polygon K) (hs : TriLong s) (ops : List (WriteOp K)) (sched : List Nat) :
    System.AllEnd (Writers.Moves (NewValue ops s.verts)) (WriteEnd ops s) s ((startWrites s ops).run sched) := by
  refine System.AllEnd.run Writers.Moves.trans Writers.Moves.refl sched ⟨Writers.Moves.refl s, ?_⟩
  intro k t ht
  have ht : (ops.map WriteOp.thread)[k]? = some t := ht
  rw [List.getElem?_map] at ht
  cases hop : ops[k]? with
  | none => rw [hop] at ht; cases ht
  | some op =>
    rw [hop] at ht
    cases ht
    have hmem : op ∈ ops := List.mem_of_getElem? hop
    have hpre : Writers.Pre (s.triTest ≠ none) s := ⟨hs, id⟩
    cases op with
    | setItem i v =>
      have hend := Ends.and_stable (Writers.stable_length s.verts.length) _ _
        (Writers.setItem_ends (N := NewValue ops s.verts) (s.triTest ≠ none) i v s hpre fun j hj => .item i v hmem hj) rfl
      refine Thread.Ends.imp ?_ _ _ hend
      rintro r u ⟨h, hl⟩ op' hop'
      rw [hop] at hop'; cases hop'
      cases hi : pyIndex s.verts.length i with
      | none =>
        rw [hi] at h
        exact .inl ⟨by simp [WriteOp.Valid, hi], h⟩
      | some j =>
        rw [hi] at h
        refine .inr ⟨by simp [WriteOp.Valid, hi], ?_⟩
        have hnew' : ∀ j', (WriteOp.setItem i v).Writes s.verts.length j' → ∀ x, u.verts[j']? = some x → NewValue ops s.verts j' x := by
          intro j' hj'
          have : j = j' := by
            have hj' : pyIndex s.verts.length i = some j' := hj'
            rw [hi] at hj'; exact Option.some.inj hj'
          subst this
          exact h.2
        obtain ⟨⟨rfl, he⟩ | ⟨rfl, hC, hl3⟩, hnew⟩ := h
        · exact .inl ⟨rfl, he.fresh, hnew'⟩
        · exact .inr ⟨rfl, hC, by omega, fun _ _ _ => hnew'⟩
    | imul T =>
      have hend := Ends.and_stable (Writers.stable_length s.verts.length) _ _
        (Writers.imul_ends (N := NewValue ops s.verts) (s.triTest ≠ none) T s (fun j x hx => by
          rcases hx with hx | hx
          · exact .first T hmem x hx
          · exact .again T hmem x hx) s (Writers.Moves.refl s) hpre) rfl
      refine Thread.Ends.imp ?_ _ _ hend
      rintro r u ⟨h, hl⟩ op' hop'
      rw [hop] at hop'; cases hop'
      refine .inr ⟨trivial, ?_⟩
      rcases h with ⟨rfl, he, hnew⟩ | ⟨rfl, hC, hl3⟩
      · exact .inl ⟨rfl, he.fresh, fun j hj => hnew j hj⟩
      · exact .inr ⟨rfl, hC, by omega, fun _ _ h => by cases h⟩

variable [PyMath K]

/-- **C98** (partial: KeyError is possible on a triangle that has answered `contains_point`, see the violation below)
whatever the schedule, an assignment that ends has succeeded if its index is valid, and raised IndexError otherwise. -/
theorem C98_results_partial {eps : K} {order} {s : Polygon K} (h : AfterInterrupts eps order s) (ops : List (WriteOp K))
    (sched : List Nat) (k : Nat) (op : WriteOp K) (hop : ops[k]? = some op) (r : WriteAns)
    (hr : ((startWrites s ops).run sched).result k = some r) :
    (¬ op.Valid s.verts.length → r = .indexError) ∧
    (op.Valid s.verts.length → r = .ok ∨ (r = .keyError ∧ s.verts.length ≤ 3 ∧ s.triTest ≠ none)) := by
  rcases (writers_run s (afterInterrupts_tri h) ops sched).result Writers.Moves.refl hr op hop with ⟨h1, h2⟩ | ⟨h1, h2⟩
  · exact ⟨fun _ => h2, fun h => absurd h h1⟩
  · refine ⟨fun h => absurd h1 h, fun _ => ?_⟩
    rcases h2 with ⟨h2, -⟩ | ⟨h2, h3, h4, -⟩
    · exact .inl h2
    · exact .inr ⟨h2, h4, h3⟩

omit [LinearOrder K] [Add K] [Sub K] [Mul K] [Div K] [Neg K] [Zero K] [One K] [RoundedArith K] [PyMath K] in
theorem threads_length {σ α : Type} (sched : List Nat) (S : System σ α) : (S.run sched).threads.length = S.threads.length := by
  unfold System.run
  induction sched generalizing S with
  | nil => rfl
  | cons i sched ih =>
    refine (ih (S.step i)).trans ?_
    unfold System.step
    split <;> simp

/-- **C98** from the moment when one assignment has succeeded, as long as threads only assign, nothing of the old caches is
left: the polygon is the same as a new one with its present vertices. -/
theorem C98_fresh {eps : K} {order} {s : Polygon K} (h : AfterInterrupts eps order s) (ops : List (WriteOp K))
    (sched : List Nat) (k : Nat) (hr : ((startWrites s ops).run sched).result k = some .ok) :
    ((startWrites s ops).run sched).shared = .fromPoints ((startWrites s ops).run sched).shared.verts := by
  have H := writers_run s (afterInterrupts_tri h) ops sched
  cases hop : ops[k]? with
  | none =>
    exfalso
    unfold System.result at hr
    have : ((startWrites s ops).run sched).threads[k]? = none := by
      rw [List.getElem?_eq_none_iff, threads_length]
      simpa [startWrites] using List.getElem?_eq_none_iff.mp hop
    rw [this] at hr
    cases hr
  | some op =>
    rcases H.result Writers.Moves.refl hr op hop with ⟨-, h2⟩ | ⟨-, ⟨-, h2, -⟩ | ⟨h2, -⟩⟩
    · cases h2
    · exact h2
    · cases h2

/-- **C98** at every moment each vertex is as before or has a new value (one that a thread assigned, or an image under
transforms of threads); and a new one if an assignment to it has succeeded. -/
theorem C98_values {eps : K} {order} {s : Polygon K} (h : AfterInterrupts eps order s) (ops : List (WriteOp K))
    (sched : List Nat) :
    let S := (startWrites s ops).run sched
    S.shared.verts.length = s.verts.length ∧
    ∀ j x, S.shared.verts[j]? = some x →
      (s.verts[j]? = some x ∨ NewValue ops s.verts j x) ∧
      ((∃ k op, ops[k]? = some op ∧ op.Writes s.verts.length j ∧ S.result k = some .ok) → NewValue ops s.verts j x) := by
  intro S
  have H := writers_run s (afterInterrupts_tri h) ops sched
  refine ⟨H.rel.cb.1, fun j x hx => ⟨H.rel.verts j x hx, ?_⟩⟩
  rintro ⟨k, op, hop, hw, hr⟩
  rcases H.result Writers.Moves.refl hr op hop with ⟨-, h2⟩ | ⟨-, ⟨-, -, h2⟩ | ⟨h2, -⟩⟩
  · cases h2
  · exact h2 j hw x hx
  · cases h2

/-- **C98** threads that assign items, and have all succeeded: each vertex has one of the values that were assigned to it,
or its old value if there was none; and the polygon is the same as a new one with these vertices. -/
theorem C98_items {eps : K} {order} {s : Polygon K} (h : AfterInterrupts eps order s) (items : List (Int × Vec2 K))
    (hne : items ≠ []) (sched : List Nat) :
    let S := (startWrites s (items.map fun a => .setItem a.1 a.2)).run sched
    (∀ k < items.length, S.result k = some .ok) →
    S.shared = .fromPoints S.shared.verts ∧ S.shared.verts.length = s.verts.length ∧
    ∀ j x, S.shared.verts[j]? = some x →
      (∃ a ∈ items, pyIndex s.verts.length a.1 = some j ∧ x = a.2) ∨
      ((∀ a ∈ items, pyIndex s.verts.length a.1 ≠ some j) ∧ s.verts[j]? = some x) := by
  intro S hall
  have hv := C98_values h (items.map fun a => .setItem a.1 a.2) sched
  have hnew : ∀ j x, NewValue (items.map fun a => WriteOp.setItem a.1 a.2) s.verts j x →
      ∃ a ∈ items, pyIndex s.verts.length a.1 = some j ∧ x = a.2 := by
    intro j x hx
    cases hx with
    | item i v hm hi =>
      obtain ⟨a, ha, e⟩ := List.mem_map.mp hm
      cases e
      exact ⟨a, ha, hi, rfl⟩
    | first T hm y hy => obtain ⟨a, ha, e⟩ := List.mem_map.mp hm; cases e
    | again T hm y hy => obtain ⟨a, ha, e⟩ := List.mem_map.mp hm; cases e
  refine ⟨C98_fresh h _ sched 0 (hall 0 (List.length_pos_iff.mpr hne)), hv.1, fun j x hx => ?_⟩
  obtain ⟨h1, h2⟩ := hv.2 j x hx
  by_cases ha : ∃ a ∈ items, pyIndex s.verts.length a.1 = some j
  · obtain ⟨a, ha, hj⟩ := ha
    obtain ⟨k, hk⟩ := List.getElem?_of_mem ha
    have hk' : k < items.length := (List.getElem?_eq_some_iff.mp hk).1
    exact .inl (hnew j x (h2 ⟨k, .setItem a.1 a.2, by rw [List.getElem?_map, hk]; rfl, hj, hall k hk'⟩))
  · rcases h1 with h1 | h1
    · exact .inr ⟨fun a hm hj => ha ⟨a, hm, hj⟩, h1⟩
    · exact .inl (hnew j x h1)

/-- **C98** when all assignments have ended, and there is one to an item that exists, then (even if some raised KeyError) one
has succeeded, and the polygon is the same as a new one with its present vertices. -/
theorem C98_settled {eps : K} {order} {s : Polygon K} (h : AfterInterrupts eps order s) (ops : List (WriteOp K))
    (hv : ∃ op ∈ ops, op.Valid s.verts.length) (sched : List Nat) :
    let S := (startWrites s ops).run sched
    (∀ k < ops.length, S.result k ≠ none) →
    (∃ k : Nat, S.result k = some .ok) ∧ S.shared = .fromPoints S.shared.verts := by
  intro S hall
  have hs := afterInterrupts_tri h
  suffices hk : ∃ k : Nat, S.result k = some .ok by
    obtain ⟨k, hk⟩ := hk
    exact ⟨⟨k, hk⟩, C98_fresh h ops sched k hk⟩
  have hget : ∀ (k : Nat) (t : Thread (Polygon K) WriteAns), (startWrites s ops).threads[k]? = some t →
      ∃ op, ops[k]? = some op ∧ t = op.thread := by
    intro k t ht
    have ht : (ops.map WriteOp.thread)[k]? = some t := ht
    rw [List.getElem?_map] at ht
    cases hop : ops[k]? with
    | none => rw [hop] at ht; cases ht
    | some op => rw [hop] at ht; cases ht; exact ⟨op, rfl, rfl⟩
  obtain ⟨op0, hop0, hval⟩ := hv
  obtain ⟨k0, hk0⟩ := List.getElem?_of_mem hop0
  have hk0lt : k0 < ops.length := (List.getElem?_eq_some_iff.mp hk0).1
  by_cases htri : s.triTest = none
  · have hr := hall k0 hk0lt
    cases hres : S.result k0 with
    | none => exact absurd hres hr
    | some r =>
      rcases (writers_run s hs ops sched).result Writers.Moves.refl hres op0 hk0 with ⟨h1, -⟩ | ⟨-, ⟨h1, -⟩ | ⟨-, h1, -⟩⟩
      · exact absurd hval h1
      · exact ⟨k0, by rw [hres, h1]⟩
      · exact absurd htri h1
  · have h0 : System.AllEnd Writers.AnyMoves (fun _ _ _ => True) s (startWrites s ops) := by
      refine ⟨Writers.Moves.refl s, fun k t ht => ?_⟩
      obtain ⟨op, -, rfl⟩ := hget k t ht
      cases op with
      | setItem i v =>
        exact Thread.Ends.imp (fun _ _ _ => trivial) _ _ (Writers.setItem_ends (N := fun _ (_ : Vec2 K) => True) True i v s
          ⟨hs, fun _ => trivial⟩ (fun _ _ => trivial))
      | imul T =>
        exact Thread.Ends.imp (fun _ _ _ => trivial) _ _ (Writers.imul_ends (N := fun _ (_ : Vec2 K) => True) True T s
          (fun _ _ _ => trivial) s (Writers.Moves.refl s) ⟨hs, fun _ => trivial⟩)
    have h1 : System.OneEnds Writers.AnyMoves Writers.Closure (fun r u => r = .ok ∧ Writers.Empty u)
        (fun k _ _ => k ≠ k0) (startWrites s ops) := by
      refine .inl ⟨htri, fun k t ht => ?_⟩
      obtain ⟨op, hop, rfl⟩ := hget k t ht
      have weak : ∀ {Q : WriteAns → Polygon K → Prop} (t : Thread (Polygon K) WriteAns) (s : Polygon K),
          (∀ a u, Q a u → k ≠ k0) → t.Kills Writers.AnyMoves Writers.Closure (fun r u => r = .ok ∧ Writers.Empty u) Q s →
          t.Kills Writers.AnyMoves Writers.Closure (fun r u => r = .ok ∧ Writers.Empty u) (fun _ _ => k ≠ k0) s := by
        intro Q t s hQ ht
        induction t generalizing s with
        | done a => exact fun u hu hc => hQ _ _ (ht u hu hc)
        | act w n ih => exact fun u hu hc => ⟨fun hw => ih u (w u) ((ht u hu hc).1 hw), (ht u hu hc).2⟩
      cases op with
      | setItem i v =>
        refine weak _ _ (fun _ _ hq => ?_) (Writers.setItem_kills i v s hs)
        rintro rfl
        rw [hk0] at hop
        cases hop
        exact hq hval
      | imul T => exact weak _ _ (fun _ _ hq => hq.elim) (Writers.imul_kills T s hs)
    have h2 := System.OneEnds.run Writers.Moves.trans Writers.Moves.refl sched h0 h1
    have hlen : S.threads.length = ops.length := by
      rw [threads_length]; simp [startWrites]
    rcases h2.result Writers.Moves.refl (fun i hi => Option.isSome_iff_ne_none.mpr (hall i (hlen ▸ hi))) with
      ⟨-, hq⟩ | ⟨k, a, hk, rfl, -⟩
    · have hr := hall k0 hk0lt
      cases hres : S.result k0 with
      | none => exact absurd hres hr
      | some r => exact absurd rfl (hq k0 r hres)
    · exact ⟨k, hk⟩

/-- **C98** threads that assign items, and have all ended, whether normally, with IndexError or with KeyError: each vertex has
one of the values that were assigned to it, or its old value if there was none; and if there was any assignment to an item
that exists, the polygon is the same as a new one with these vertices. -/
theorem C98_settled_items {eps : K} {order} {s : Polygon K} (h : AfterInterrupts eps order s) (items : List (Int × Vec2 K))
    (sched : List Nat) :
    let S := (startWrites s (items.map fun a => .setItem a.1 a.2)).run sched
    (∀ k < items.length, S.result k ≠ none) →
    ((∃ a ∈ items, pyIndex s.verts.length a.1 ≠ none) → S.shared = .fromPoints S.shared.verts) ∧
    S.shared.verts.length = s.verts.length ∧
    ∀ j x, S.shared.verts[j]? = some x →
      (∃ a ∈ items, pyIndex s.verts.length a.1 = some j ∧ x = a.2) ∨
      ((∀ a ∈ items, pyIndex s.verts.length a.1 ≠ some j) ∧ s.verts[j]? = some x) := by
  intro S hall
  have hv := C98_values h (items.map fun a => .setItem a.1 a.2) sched
  have hnew : ∀ j x, NewValue (items.map fun a => WriteOp.setItem a.1 a.2) s.verts j x →
      ∃ a ∈ items, pyIndex s.verts.length a.1 = some j ∧ x = a.2 := by
    intro j x hx
    cases hx with
    | item i v hm hi =>
      obtain ⟨a, ha, e⟩ := List.mem_map.mp hm
      cases e
      exact ⟨a, ha, hi, rfl⟩
    | first T hm y hy => obtain ⟨a, ha, e⟩ := List.mem_map.mp hm; cases e
    | again T hm y hy => obtain ⟨a, ha, e⟩ := List.mem_map.mp hm; cases e
  refine ⟨fun ⟨a, ha, hi⟩ => ?_, hv.1, fun j x hx => ?_⟩
  · refine (C98_settled h _ ⟨_, List.mem_map.mpr ⟨a, ha, rfl⟩, ?_⟩ sched ?_).2
    · exact Option.isSome_iff_ne_none.mpr hi
    · simpa using hall
  · by_cases ha : ∃ a ∈ items, pyIndex s.verts.length a.1 = some j
    · obtain ⟨a, ha, hj⟩ := ha
      obtain ⟨k, hk⟩ := List.getElem?_of_mem ha
      have hk' : k < items.length := (List.getElem?_eq_some_iff.mp hk).1
      refine .inl (hnew j x ?_)
      cases hr : S.result k with
      | none => exact absurd hr (hall k hk')
      | some r =>
        rcases (writers_run s (afterInterrupts_tri h) _ sched).result Writers.Moves.refl hr (.setItem a.1 a.2)
          (by rw [List.getElem?_map, hk]; rfl) with ⟨h1, -⟩ | ⟨-, ⟨-, -, h2⟩ | ⟨-, -, -, h2⟩⟩
        · exact absurd (Option.isSome_iff_ne_none.mpr (by rw [hj]; simp)) h1
        · exact h2 j hj x hx
        · exact h2 _ _ rfl j hj x hx
    · rcases (hv.2 j x hx).1 with h1 | h1
      · exact .inr ⟨fun a hm hj => ha ⟨a, hm, hj⟩, h1⟩
      · exact .inl (hnew j x h1)

end polygons

section shared
variable {K : Type}

/-- The thread keeps `_y_polylines` or sets it to None. -/
def Thread.Tame {α : Type} : Thread (Polygon K) α → Prop
  | .done _ => True
  | .act w n => (∀ s, (w s).yPolylines = none ∨ (w s).yPolylines = s.yPolylines) ∧ ∀ s, (n s).Tame

theorem Thread.Tame.bind {α β : Type} {t : Thread (Polygon K) α} {k : α → Thread (Polygon K) β} (h : t.Tame) (hk : ∀ a, (k a).Tame) :
    (t.bind k).Tame := by
  induction t with
  | done a => exact hk a
  | act w n ih => exact ⟨h.1, fun s => ih s (h.2 s)⟩

theorem tame_read {α : Type} (f : Polygon K → α) : (Thread.read f).Tame := ⟨fun _ => .inr rfl, fun _ => trivial⟩

theorem tame_clearRest : (Writers.clearRest (K := K)).Tame :=
  ⟨fun _ => .inl rfl, fun _ => ⟨fun _ => .inr rfl, fun _ => ⟨fun _ => .inr rfl, fun _ => ⟨fun _ => .inr rfl, fun _ =>
    ⟨fun _ => .inr rfl, fun _ => ⟨fun _ => .inr rfl, fun _ => ⟨fun _ => .inr rfl, fun _ => ⟨fun _ => .inr rfl, fun _ =>
      ⟨fun _ => .inr rfl, fun _ => trivial⟩⟩⟩⟩⟩⟩⟩⟩⟩

theorem tame_clear : (Writers.clear (K := K)).Tame := by
  unfold Writers.clear
  refine (tame_read _).bind fun n => ?_
  split
  · exact ⟨fun _ => .inr rfl, fun _ => ⟨fun _ => .inr rfl, fun _ => tame_clearRest⟩⟩
  · refine ⟨fun _ => .inr rfl, fun _ => ⟨fun _ => .inr rfl, fun _ => ?_⟩⟩
    change (Writers.deleteClosure Writers.clearRest).Tame
    refine Thread.Tame.bind (tame_read _) fun b => ?_
    split
    · refine ⟨fun _ => .inr rfl, fun s => ?_⟩
      simp only
      split
      · exact tame_clearRest
      · trivial
    · exact tame_clearRest

theorem tame_item [Mul K] [One K] (i : Int) (v : Vec2 K) : (Writers.setItem i v).Tame := by
  refine ⟨fun s => .inr ?_, fun s => ?_⟩
  · simp only
    split <;> rfl
  · simp only
    split
    · exact tame_clear
    · trivial

theorem tame_loop [Add K] [Mul K] [One K] (T : Affine K) (count i : Nat) : (Writers.loop T i count).Tame := by
  induction count generalizing i with
  | zero => trivial
  | succ count ih =>
    refine (tame_read _).bind fun v => ?_
    cases v with
    | none => trivial
    | some v =>
      refine (tame_item _ _).bind fun r => ?_
      split
      · exact ih _
      · trivial

variable [Add K] [Mul K] [Zero K] [One K] [BEq K]

theorem tame_op (op : WriteOp K) : op.thread.Tame := by
  cases op with
  | setItem i v => exact tame_item i v
  | imul T =>
    refine (tame_read _).bind fun n => Thread.Tame.bind ?_ fun r => ?_
    · split
      · exact tame_loop T n 0
      · trivial
    · split
      · exact tame_clear
      · trivial

theorem put_view (s : Shared K) (o : Polygon K) (h : o.yPolylines = none ∨ o.yPolylines = s.view.yPolylines) : (s.put o).view = o := by
  have hy : (s.put o).view.yPolylines = o.yPolylines := by
    rcases h with h | h
    · simp [Shared.put, Shared.view, h]
    · rw [h]
      cases hr : s.refs with
      | none => simp [Shared.put, Shared.view, h, hr]
      | some r => simp [Shared.put, Shared.view, h, hr, Shared.list]
  have : (s.put o).view = { o with yPolylines := (s.put o).view.yPolylines } := rfl
  rw [this, hy]

theorem shared_run {α β : Type} (g : α → β) (sched : List Nat) (S : System (Polygon K) α) (S' : System (Shared K) β)
    (hv : S'.shared.view = S.shared) (ht : S'.threads = S.threads.map (Thread.onShared g)) (htame : ∀ t ∈ S.threads, t.Tame) :
    (S'.run sched).shared.view = (S.run sched).shared ∧
    (S'.run sched).threads = (S.run sched).threads.map (Thread.onShared g) := by
  induction sched generalizing S S' with
  | nil => exact ⟨hv, ht⟩
  | cons i sched ih =>
    cases hi : S.threads[i]? with
    | none =>
      have h1 : S.step i = S := by unfold System.step; rw [hi]
      have h2 : S'.step i = S' := by unfold System.step; rw [ht, List.getElem?_map, hi]; rfl
      change (((S'.step i).run sched).shared.view = ((S.step i).run sched).shared ∧ ((S'.step i).run sched).threads = ((S.step i).run sched).threads.map _)
      rw [h1, h2]; exact ih S S' hv ht htame
    | some t =>
      cases t with
      | done a =>
        have h1 : S.step i = S := by unfold System.step; rw [hi]
        have h2 : S'.step i = S' := by unfold System.step; rw [ht, List.getElem?_map, hi]; rfl
        change (((S'.step i).run sched).shared.view = ((S.step i).run sched).shared ∧ ((S'.step i).run sched).threads = ((S.step i).run sched).threads.map _)
        rw [h1, h2]; exact ih S S' hv ht htame
      | act w n =>
        have hm : (Thread.act w n) ∈ S.threads := List.mem_of_getElem? hi
        have hw := htame _ hm
        have h1 : S.step i = ⟨w S.shared, S.threads.set i (n S.shared)⟩ := by unfold System.step; rw [hi]
        have h2 : S'.step i = ⟨S'.shared.put (w S'.shared.view), S'.threads.set i ((n S'.shared.view).onShared g)⟩ := by
          unfold System.step; rw [ht, List.getElem?_map, hi]; rfl
        change (((S'.step i).run sched).shared.view = ((S.step i).run sched).shared ∧ ((S'.step i).run sched).threads = ((S.step i).run sched).threads.map _)
        rw [h1, h2]
        refine ih _ _ ?_ ?_ ?_
        · simp only
          rw [put_view _ _ (by rcases hw.1 S'.shared.view with e | e; exacts [.inl e, .inr e]), hv]
        · simp only
          rw [ht, List.map_set, hv]
        · intro t' ht'
          rcases List.mem_or_eq_of_mem_set ht' with h | h
          · exact htame t' h
          · rw [h]; exact hw.2 _

variable [Sub K] [Div K] [LT K] [LE K] [DecidableLT K] [DecidableLE K]

/-- **C98** the model with reading threads is an extension: without them it is that of the theorems above. -/
theorem C98_shared (eps : K) (s : Polygon K) (ops : List (WriteOp K)) (sched : List Nat) :
    ((startBoth eps s [] ops).run sched).shared.view = ((startWrites s ops).run sched).shared ∧
    ∀ k, ((startBoth eps s [] ops).run sched).result k = (((startWrites s ops).run sched).result k).map .inr := by
  have h := shared_run Sum.inr (α := WriteAns) (β := ReadAns K ⊕ WriteAns) sched (startWrites s ops) (startBoth eps s [] ops)
    (Shared.of_view s) (by simp [startBoth, startWrites, List.map_map, Function.comp_def]) (by
      intro t ht
      obtain ⟨op, -, rfl⟩ := List.mem_map.mp ht
      exact tame_op op)
  refine ⟨h.1, fun k => ?_⟩
  unfold System.result
  rw [h.2, List.getElem?_map]
  cases ((startWrites s ops).run sched).threads[k]? with
  | none => rfl
  | some t => cases t <;> rfl

end shared

section mix
variable {K : Type} [LinearOrder K] [Add K] [Sub K] [Mul K] [Div K] [Neg K] [Zero K] [One K] [RoundedArith K] [PyMath K]

theorem both_run {eps : K} {order} {s : Polygon K} (h : AfterInterrupts eps order s) (reads : List (ReadOp K))
    (writes : List (WriteOp K)) (sched : List Nat) :
    Mix.Keeps (NewValue writes s.verts) (Shared.of s) ((startBoth eps s reads writes).run sched).shared := by
  have e : (Shared.of s).obj = s := by unfold Shared.of; cases s.yPolylines <;> rfl
  have hs : (startBoth eps s reads writes).AllSafe (Mix.Keeps (NewValue writes s.verts)) (fun _ _ => True) (Shared.of s) := by
    refine ⟨Mix.Keeps.refl _, fun i t ht => ?_⟩
    have ht := List.mem_of_getElem? ht
    rcases List.mem_append.mp ht with ht | ht
    · obtain ⟨op, -, rfl⟩ := List.mem_map.mp ht
      exact Thread.Safe.bind (P := fun _ => True) Mix.Keeps.refl Mix.Keeps.trans _ _ (Mix.safe_read eps op _) fun _ _ _ _ => trivial
    · obtain ⟨op, hm, rfl⟩ := List.mem_map.mp ht
      refine Mix.safe_write op _ ?_ _
      have e' : (startBoth eps s reads writes).shared.obj = s := e
      cases op with
      | setItem i v => exact fun j hj => .item i v hm (by rwa [e'] at hj)
      | imul T => exact fun j x hx => hx.elim (fun hx => .first T hm x (by rwa [e'] at hx)) fun hx => .again T hm x hx
  exact (hs.run Mix.Keeps.trans Mix.Keeps.refl sched).rel

/-- **C98** whatever threads that read and threads that assign have done, finished or not, each vertex has its old or a new
value, and the next `poly[i] = v` or `poly *= T` that is alone leaves a polygon that is the same as a new one with the
vertices it has then. -/
theorem C98_repair {eps : K} {order} {s : Polygon K} (h : AfterInterrupts eps order s) (reads : List (ReadOp K))
    (writes : List (WriteOp K)) (sched : List Nat) :
    let u := ((startBoth eps s reads writes).run sched).shared.view
    u.verts.length = s.verts.length ∧
    (∀ j x, u.verts[j]? = some x → s.verts[j]? = some x ∨ NewValue writes s.verts j x) ∧
    (∀ i v, (u.setItem i v).1 = .ok () → ∃ vs, pySet u.verts i v = .ok vs ∧ (u.setItem i v).2 = .fromPoints vs) ∧
    (∀ T, u.imul T = .fromPoints (u.verts.map T.apply)) := by
  intro u
  have e : (Shared.of s).obj = s := by unfold Shared.of; cases s.yPolylines <;> rfl
  have H := both_run h reads writes sched
  have ht : TriLong u := H.tri (by rw [e]; exact afterInterrupts_tri h)
  refine ⟨H.length.trans (by rw [e]), fun j x hx => ?_, fun i v hok => ?_, fun T => ?_⟩
  · have := H.verts j x hx
    rwa [e] at this
  · unfold Polygon.setItem at hok ⊢
    rw [Vec2.copy_fl] at hok ⊢
    cases hp : pySet u.verts i v with
    | error e => rw [hp] at hok; cases hok
    | ok vs =>
      refine ⟨vs, rfl, cleared_tri _ _ fun h3 => ht ?_⟩
      unfold pySet at hp
      cases hk : pyIndex u.verts.length i with
      | none => rw [hk] at hp; cases hp
      | some j => rw [hk] at hp; cases hp; simpa using h3
  · rw [Polygon.imul_eq_cleared]
    refine cleared_tri _ _ fun h3 => ?_
    have h3 : 3 < u.verts.length := by simpa using h3
    simp only [h3, if_true]
    exact ht h3

end mix

section arrays
variable {K : Type} [LinearOrder K] [Add K] [Sub K] [Mul K] [Div K] [Neg K] [Zero K] [One K] [RoundedArith K]

theorem perm_set_flatten {α : Type} (l : List (List α)) (i : Nat) (d : List α) (v : α) (h : l[i]? = some d) :
    (l.set i (d ++ [v])).flatten.Perm (l.flatten ++ [v]) := by
  induction l generalizing i with
  | nil => cases h
  | cons a l ih =>
    cases i with
    | zero =>
      cases h
      simp only [List.set_cons_zero, List.flatten_cons, List.append_assoc]
      exact (List.perm_append_comm).append_left d
    | succ i =>
      simp only [List.set_cons_succ, List.flatten_cons, List.append_assoc]
      exact (ih i h).append_left a

/-- **C98** threads that extend the same array: at every moment the array has the old vectors, followed by `zs`, which
consists of what each thread has appended so far (`done`), in the order of each thread; all of its vectors if it has
ended. -/
theorem C98_extend (s : Vecs K) (vss : List (List (Vec2 K))) (sched : List Nat) :
    let S := System.run ⟨s, vss.map fun vs => Mutate.extend (vs.map fun v => [v.x, v.y])⟩ sched
    ∃ (zs : List (Vec2 K)) (done : List (List (Vec2 K))), S.shared = s ++ zs ∧ zs.Perm done.flatten ∧ done.length = vss.length ∧
      ∀ k d vs, done[k]? = some d → vss[k]? = some vs → d <+: vs ∧ d.Sublist zs ∧
        ∀ r, S.result k = some r → r = .ok () ∧ d = vs := by
  intro S
  let ext : List (Vec2 K) → Thread (Vecs K) (Py Unit) := fun vs => Mutate.extend (vs.map fun v => [v.x, v.y])
  have key : ∀ (sched : List Nat) (S : System (Vecs K) (Py Unit)), (∃ (zs : List (Vec2 K)) (dr : List (List (Vec2 K) × List (Vec2 K))),
      S.shared = s ++ zs ∧ S.threads = dr.map (fun p => ext p.2) ∧ vss = dr.map (fun p => p.1 ++ p.2) ∧
      zs.Perm (dr.map Prod.fst).flatten ∧ ∀ p ∈ dr, p.1.Sublist zs) →
      (∃ (zs : List (Vec2 K)) (dr : List (List (Vec2 K) × List (Vec2 K))),
      (S.run sched).shared = s ++ zs ∧ (S.run sched).threads = dr.map (fun p => ext p.2) ∧ vss = dr.map (fun p => p.1 ++ p.2) ∧
      zs.Perm (dr.map Prod.fst).flatten ∧ ∀ p ∈ dr, p.1.Sublist zs) := by
    intro sched
    induction sched with
    | nil => exact fun S h => h
    | cons i sched ih =>
      rintro S ⟨zs, dr, h1, h2, h3, h4, h5⟩
      refine ih (S.step i) ?_
      cases hi : dr[i]? with
      | none =>
        have : S.step i = S := by unfold System.step; rw [h2, List.getElem?_map, hi]; rfl
        rw [this]; exact ⟨zs, dr, h1, h2, h3, h4, h5⟩
      | some p =>
        obtain ⟨d, r⟩ := p
        cases r with
        | nil =>
          have : S.step i = S := by unfold System.step; rw [h2, List.getElem?_map, hi]; rfl
          rw [this]; exact ⟨zs, dr, h1, h2, h3, h4, h5⟩
        | cons v r =>
          have hv : Vec2Array.ofSeq [v.x, v.y] = .ok v := by
            change Except.ok v.copy = _
            rw [Vec2.copy_fl]
          have hext : ext (v :: r) = .act (fun s => s ++ [v]) fun _ => ext r := by
            change Mutate.extend ([v.x, v.y] :: r.map fun v => [v.x, v.y]) = _
            rw [Mutate.extend, hv]; rfl
          have : S.step i = ⟨S.shared ++ [v], S.threads.set i (ext r)⟩ := by
            unfold System.step; rw [h2, List.getElem?_map, hi]; simp only [Option.map_some, hext]
          rw [this]
          have hlt : i < dr.length := (List.getElem?_eq_some_iff.mp hi).1
          refine ⟨zs ++ [v], dr.set i (d ++ [v], r), by simp [h1], ?_, ?_, ?_, ?_⟩
          · simp only; rw [h2, List.map_set]
          · rw [List.map_set, h3]
            refine List.ext_getElem? fun n => ?_
            rw [List.getElem?_set]
            by_cases hn : i = n
            · subst hn
              rw [List.getElem?_map, hi, if_pos rfl, List.length_map, if_pos hlt]
              simp
            · rw [if_neg hn]
          · rw [List.map_set]
            exact (h4.append_right [v]).trans (perm_set_flatten _ i d v (by rw [List.getElem?_map, hi]; rfl)).symm
          · intro p hp
            rcases List.mem_or_eq_of_mem_set hp with h | h
            · exact (h5 p h).trans (List.sublist_append_left zs [v])
            · rw [h]; exact (h5 (d, v :: r) (List.mem_of_getElem? hi)).append (List.Sublist.refl [v])
  obtain ⟨zs, dr, h1, h2, h3, h4, h5⟩ := key sched ⟨s, vss.map ext⟩ ⟨[], vss.map fun vs => ([], vs), by simp, by simp [List.map_map, Function.comp_def],
    by simp [List.map_map, Function.comp_def], by simp [List.map_map, Function.comp_def], by simp⟩
  refine ⟨zs, dr.map Prod.fst, h1, h4, by rw [h3]; simp, ?_⟩
  intro k d vs hd hvs
  rw [h3, List.getElem?_map] at hvs
  rw [List.getElem?_map] at hd
  cases hk : dr[k]? with
  | none => rw [hk] at hd; cases hd
  | some p =>
    rw [hk] at hd hvs
    cases hd; cases hvs
    refine ⟨List.prefix_append _ _, h5 p (List.mem_of_getElem? hk), fun r hr => ?_⟩
    unfold System.result at hr
    rw [show S.threads = dr.map (fun p => ext p.2) from h2, List.getElem?_map, hk] at hr
    obtain ⟨d, rest⟩ := p
    cases rest with
    | nil => 
      have hr : some (Except.ok () : Py Unit) = some r := hr
      cases hr; simp
    | cons v rest =>
      exfalso
      have hv : Vec2Array.ofSeq [v.x, v.y] = .ok v := by
        change Except.ok v.copy = _
        rw [Vec2.copy_fl]
      have hext : ext (v :: rest) = .act (fun s => s ++ [v]) fun _ => ext rest := by
        change Mutate.extend ([v.x, v.y] :: rest.map fun v => [v.x, v.y]) = _
        rw [Mutate.extend, hv]; rfl
      simp only [Option.map_some, hext] at hr
      cases hr

/-- What an operation of an array does, alone: that of the list with the same name; a read changes nothing. -/
def ArrayPost (op : ArrayOp K) (l : Vecs K) (a : ArrayAns K) (l' : Vecs K) : Prop :=
  match op with
  | .getItem i => l' = l ∧ ((∃ j v, PyAt l.length i j ∧ l[j]? = some v ∧ a = .item (.ok v)) ∨
      ((∀ j, ¬ PyAt l.length i j) ∧ a = .item (.error .indexError)))
  | .getSlice b c step => l' = l ∧
      ((step ≠ 0 ∧ a = .array (.ok ((slicePositions l.length b c step).filterMap fun k => l[k]?))) ∨
      (step = 0 ∧ a = .array (.error .valueError)))
  | .setItem i [x, y] => ∃ r, a = .none r ∧ ListPost (.setItem i ⟨x, y⟩) l r l'
  | .append [x, y] => ∃ r, a = .none r ∧ ListPost (.append ⟨x, y⟩) l r l'
  | .insert i [x, y] => ∃ r, a = .none r ∧ ListPost (.insert i ⟨x, y⟩) l r l'
  | .setSlice b c step vs => (∀ ws : List (Vec2 K), vs = ws.map (fun w => [w.x, w.y]) →
      ∃ r, a = .none r ∧ ListPost (.setSlice b c step ws) l r l') ∧
      ((∃ v ∈ vs, v.length ≠ 2) → a = .none (.error .typeError) ∧ l' = l)
  | .delItem i => ∃ r, a = .none r ∧ ListPost (.delItem i) l r l'
  | .delSlice b c step => ∃ r, a = .none r ∧ ListPost (.delSlice b c step) l r l'
  | _ => a = .none (.error .typeError) ∧ l' = l

/-- **C98** the operations that `C98_arrays` puts in order are those of a list. -/
theorem C98_array_ops (s : Vecs K) (op : ArrayOp K) : ArrayPost op s (op.run s).1 (op.run s).2 := by
  cases op with
  | getItem i =>
    obtain ⟨h1, h2, -, -⟩ := C29_reads s i none none 1
    refine ⟨rfl, ?_⟩
    by_cases h : ∃ j, PyAt s.length i j
    · obtain ⟨j, hj⟩ := h
      obtain ⟨v, hv, e⟩ := h1 j hj
      exact .inl ⟨j, v, hj, hv, by rw [ArrayOp.run, e]⟩
    · have h := not_exists.mp h
      exact .inr ⟨h, by rw [ArrayOp.run, h2 h]⟩
  | getSlice b c step =>
    obtain ⟨-, -, h3, h4⟩ := C29_reads s 0 b c step
    refine ⟨rfl, ?_⟩
    by_cases h : step = 0
    · exact .inr ⟨h, by rw [ArrayOp.run, h4 h]⟩
    · exact .inl ⟨h, by rw [ArrayOp.run, h3 h]⟩
  | setItem i v =>
    rcases v with _ | ⟨x, _ | ⟨y, _ | ⟨z, t⟩⟩⟩
    · rw [ArrayOp.run, ((C29_raw_item s i []).2 (by simp)).2.2]; exact ⟨rfl, rfl⟩
    · rw [ArrayOp.run, ((C29_raw_item s i [x]).2 (by simp)).2.2]; exact ⟨rfl, rfl⟩
    · exact ⟨_, rfl, by rw [ArrayOp.run, ((C29_raw_item s i [x, y]).1 ⟨x, y⟩ rfl).2.2]; exact C29_vec2array_op (.setItem i ⟨x, y⟩) s⟩
    · rw [ArrayOp.run, ((C29_raw_item s i (x :: y :: z :: t)).2 (by simp)).2.2]; exact ⟨rfl, rfl⟩
  | setSlice b c step vs =>
    refine ⟨fun ws hws => ?_, fun h => by rw [ArrayOp.run, ((C29_raw_items s b c step vs).2 h).2]; exact ⟨rfl, rfl⟩⟩
    exact ⟨_, rfl, by rw [ArrayOp.run, ((C29_raw_items s b c step vs).1 ws hws).2.2]; exact C29_vec2array_op (.setSlice b c step ws) s⟩
  | append v =>
    rcases v with _ | ⟨x, _ | ⟨y, _ | ⟨z, t⟩⟩⟩
    · rw [ArrayOp.run, ((C29_raw_item s 0 []).2 (by simp)).1]; exact ⟨rfl, rfl⟩
    · rw [ArrayOp.run, ((C29_raw_item s 0 [x]).2 (by simp)).1]; exact ⟨rfl, rfl⟩
    · exact ⟨_, rfl, by rw [ArrayOp.run, ((C29_raw_item s 0 [x, y]).1 ⟨x, y⟩ rfl).1]; simpa [ArrOp.exec, Vec2Array.append, Vec2.copy_fl] using C29_vec2array_op (.append ⟨x, y⟩) s⟩
    · rw [ArrayOp.run, ((C29_raw_item s 0 (x :: y :: z :: t)).2 (by simp)).1]; exact ⟨rfl, rfl⟩
  | insert i v =>
    rcases v with _ | ⟨x, _ | ⟨y, _ | ⟨z, t⟩⟩⟩
    · rw [ArrayOp.run, ((C29_raw_item s i []).2 (by simp)).2.1]; exact ⟨rfl, rfl⟩
    · rw [ArrayOp.run, ((C29_raw_item s i [x]).2 (by simp)).2.1]; exact ⟨rfl, rfl⟩
    · exact ⟨_, rfl, by rw [ArrayOp.run, ((C29_raw_item s i [x, y]).1 ⟨x, y⟩ rfl).2.1]; exact C29_vec2array_op (.insert i ⟨x, y⟩) s⟩
    · rw [ArrayOp.run, ((C29_raw_item s i (x :: y :: z :: t)).2 (by simp)).2.1]; exact ⟨rfl, rfl⟩
  | delItem i => exact ⟨_, rfl, C29_vec2array_op (.delItem i) s⟩
  | delSlice b c step => exact ⟨_, rfl, C29_vec2array_op (.delSlice b c step) s⟩

/-- **C98** threads that each make one operation on the same array which uses its list once (items, slices, append, insert,
del): whatever the schedule, it is as if those that have ended had run one after the other, in some order. -/
theorem C98_arrays (s : Vecs K) (ops : List (ArrayOp K)) (sched : List Nat) :
    let S := System.run ⟨s, ops.map ArrayOp.thread⟩ sched
    ∃ order : List Nat, order.Nodup ∧ S.shared = inTurn ops s order ∧ (∀ k, k ∈ order ↔ (S.result k).isSome) ∧
      ∀ before k after op, order = before ++ k :: after → ops[k]? = some op → S.result k = some (op.run (inTurn ops s before)).1 := by
  intro S
  have key : ∀ (sched : List Nat) (S : System (Vecs K) (ArrayAns K)), (∃ order : List Nat, order.Nodup ∧ S.shared = inTurn ops s order ∧
      S.threads.length = ops.length ∧ (∀ k op, ops[k]? = some op → k ∉ order → S.threads[k]? = some op.thread) ∧
      (∀ k ∈ order, k < ops.length) ∧
      ∀ before k after op, order = before ++ k :: after → ops[k]? = some op → S.threads[k]? = some (.done (op.run (inTurn ops s before)).1)) →
      (∃ order : List Nat, order.Nodup ∧ (S.run sched).shared = inTurn ops s order ∧
      (S.run sched).threads.length = ops.length ∧ (∀ k op, ops[k]? = some op → k ∉ order → (S.run sched).threads[k]? = some op.thread) ∧
      (∀ k ∈ order, k < ops.length) ∧
      ∀ before k after op, order = before ++ k :: after → ops[k]? = some op →
        (S.run sched).threads[k]? = some (.done (op.run (inTurn ops s before)).1)) := by
    intro sched
    induction sched with
    | nil => exact fun S h => h
    | cons i sched ih =>
      rintro S ⟨order, h1, h2, h3, h4, h5, h6⟩
      refine ih (S.step i) ?_
      cases hi : ops[i]? with
      | none =>
        have : S.threads[i]? = none := by rw [List.getElem?_eq_none_iff, h3]; exact List.getElem?_eq_none_iff.mp hi
        have : S.step i = S := by unfold System.step; rw [this]
        rw [this]; exact ⟨order, h1, h2, h3, h4, h5, h6⟩
      | some op =>
        by_cases hm : i ∈ order
        · obtain ⟨before, after, e⟩ := List.append_of_mem hm
          have : S.step i = S := by unfold System.step; rw [h6 before i after op e hi]
          rw [this]; exact ⟨order, h1, h2, h3, h4, h5, h6⟩
        · have hlt : i < ops.length := (List.getElem?_eq_some_iff.mp hi).1
          have : S.step i = ⟨(op.run S.shared).2, S.threads.set i (.done (op.run S.shared).1)⟩ := by
            unfold System.step; rw [h4 i op hi hm]; rfl
          rw [this]
          refine ⟨order ++ [i], ?_, ?_, by simp [h3], ?_, ?_, ?_⟩
          · rw [List.nodup_append]
            exact ⟨h1, by simp, by intro a ha b hb e; rw [List.mem_singleton] at hb; exact hm (by rw [← hb, ← e]; exact ha)⟩
          · simp only [inTurn, List.foldl_append, List.foldl_cons, List.foldl_nil, hi]
            rw [h2]; rfl
          · intro k op' hk hnot
            have hne : i ≠ k := fun e => hnot (by simp [e])
            simp only
            rw [List.getElem?_set_ne hne]
            exact h4 k op' hk fun h => hnot (by simp [h])
          · intro k hk
            rcases List.mem_append.mp hk with h | h
            · exact h5 k h
            · rw [List.mem_singleton.mp h]; exact hlt
          · intro before k after op' e hk
            simp only
            by_cases hne : i = k
            · subst hne
              rw [hi] at hk; cases hk
              have hb : before = order := by
                cases after using List.reverseRecOn with
                | nil => exact (List.append_inj_left' e rfl).symm
                | append_singleton after a _ =>
                  exfalso
                  have e' : order ++ [i] = (before ++ i :: after) ++ [a] := by rw [e]; simp
                  have := List.append_inj_left' e' rfl
                  exact hm (by rw [this]; simp)
              rw [List.getElem?_set_self (by rw [h3]; exact hlt), hb, h2]
            · rw [List.getElem?_set_ne hne]
              cases after using List.reverseRecOn with
              | nil =>
                have := List.append_inj_right' e rfl
                cases this
                exact absurd rfl hne
              | append_singleton after a _ =>
                have e' : order ++ [i] = (before ++ k :: after) ++ [a] := by rw [e]; simp
                exact h6 before k after op' (List.append_inj_left' e' rfl) hk
  obtain ⟨order, h1, h2, h3, h4, h5, h6⟩ := key sched ⟨s, ops.map ArrayOp.thread⟩ ⟨[], List.nodup_nil, rfl, by simp,
    fun k op hk _ => by simp [hk], by simp, fun before k after op e => by cases before <;> cases e⟩
  have hres : ∀ before k after op, order = before ++ k :: after → ops[k]? = some op → S.result k = some (op.run (inTurn ops s before)).1 := by
    intro before k after op e hk
    unfold System.result
    rw [show S.threads[k]? = _ from h6 before k after op e hk]
  refine ⟨order, h1, h2, fun k => ⟨fun hk => ?_, fun hk => ?_⟩, hres⟩
  · obtain ⟨before, after, e⟩ := List.append_of_mem hk
    rw [hres before k after _ e (List.getElem?_eq_getElem (h5 k hk))]; rfl
  · by_contra hnot
    unfold System.result at hk
    cases hop : ops[k]? with
    | none =>
      have : S.threads[k]? = none := by
        rw [List.getElem?_eq_none_iff, show S.threads.length = _ from h3]; exact List.getElem?_eq_none_iff.mp hop
      rw [this] at hk; cases hk
    | some op => rw [show S.threads[k]? = _ from h4 k op hop hnot] at hk; cases hk

end arrays

section violated
open Mutate

private instance : DecidableEq (Vec2 ℚ) := fun a b => decidable_of_iff (a.x = b.x ∧ a.y = b.y)
  ⟨fun h => by cases a; cases b; simp_all, fun h => by subst h; exact ⟨rfl, rfl⟩⟩

/-- Upper right corner of a box that has been returned. -/
private def boxMax : ReadAns ℚ ⊕ WriteAns → Option (Vec2 ℚ)
  | .inl (.box (.ok b)) => some b.max
  | _ => none

/-- A yes-no question that raised TypeError. -/
private def raised : ReadAns ℚ ⊕ WriteAns → Bool
  | .inl (.flag (.error .typeError)) => true
  | _ => false

/-- An assignment that succeeded. -/
private def succeeded : ReadAns ℚ ⊕ WriteAns → Bool
  | .inr .ok => true
  | _ => false

private def square4 : Polygon ℚ := .fromPoints [⟨0, 0⟩, ⟨4, 0⟩, ⟨4, 4⟩, ⟨0, 4⟩]

/-- **C98 violated** one thread asks for `bounding_box` while another does `poly[2] = (9, 9)`. Both return; the polygon has
the new vertex, but from now on the bounding box of the old ones. -/
theorem C98_stale_violated :
    let S := (startBoth 0 square4 [.boundingBox] [.setItem 2 ⟨9, 9⟩]).run ([0, 0] ++ List.replicate 13 1 ++ [0, 0])
    (S.result 0).map boxMax = some (some ⟨4, 4⟩) ∧ (S.result 1).map succeeded = some true ∧
    S.shared.view.verts = [⟨0, 0⟩, ⟨4, 0⟩, ⟨9, 9⟩, ⟨0, 4⟩] ∧ S.shared.view.boundingBox.1.toOption.map Box.max = some ⟨4, 4⟩ ∧
    (Polygon.fromPoints S.shared.view.verts).boundingBox.1.toOption.map Box.max = some ⟨9, 9⟩ := by
  refine ⟨by decide +kernel, by decide +kernel, by decide +kernel, by decide +kernel, by decide +kernel⟩

/-- A pentagon whose convexity has been asked for. -/
private def known : Polygon ℚ := (Polygon.fromPoints [⟨0, 0⟩, ⟨4, 0⟩, ⟨5, 3⟩, ⟨2, 5⟩, ⟨-1, 3⟩] : Polygon ℚ).isConvex.2

/-- **C98 violated** `contains_point` raises TypeError when another thread assigns to an item meanwhile. -/
theorem C98_raise_violated :
    let S := (startBoth 0 known [.contains (.vec ⟨2, 2⟩)] [.setItem 2 ⟨6, 3⟩]).run ([0, 0, 0] ++ List.replicate 13 1 ++ [0])
    (S.result 0).map raised = some true ∧ (S.result 1).map succeeded = some true := by
  refine ⟨by decide +kernel, by decide +kernel⟩

/-- A triangle that has been asked whether it contains a point. -/
private def tri3 : Polygon ℚ := ((Polygon.fromPoints [⟨0, 0⟩, ⟨4, 0⟩, ⟨0, 4⟩] : Polygon ℚ).containsPoint 0 (.vec ⟨1, 1⟩)).2

/-- **C98 violated** two threads assign to different vertices of a triangle that has answered `contains_point`; one of them
raises KeyError. -/
theorem C98_keyerror_violated :
    let S := (startWrites tri3 [.setItem 0 ⟨1, 0⟩, .setItem 1 ⟨5, 0⟩]).run
      ([0, 0, 0, 0, 0] ++ List.replicate 5 1 ++ List.replicate 10 0 ++ [1])
    S.result 0 = some .ok ∧ S.result 1 = some .keyError := by
  refine ⟨by decide +kernel, by decide +kernel⟩

/-- **C98 violated** two threads do `poly *= T`: the polygon moves by one T, for the first vertex, and by two for others. -/
theorem C98_lost_violated :
    let T : Affine ℚ := ⟨1, 0, 1, 0, 1, 0⟩
    let S := (startWrites (.fromPoints [⟨0, 0⟩, ⟨4, 0⟩, ⟨0, 4⟩]) [.imul T, .imul T]).run
      ([0, 0, 1, 1] ++ List.replicate 60 0 ++ List.replicate 60 1)
    S.result 0 = some .ok ∧ S.result 1 = some .ok ∧ S.shared.verts = [⟨1, 0⟩, ⟨6, 0⟩, ⟨2, 4⟩] := by
  refine ⟨by decide +kernel, by decide +kernel, by decide +kernel⟩

/-- **C98 violated** two threads do `array += (1, 0)`: one of the additions is lost. -/
theorem C98_array_violated :
    let add : Thread (Vecs ℚ) (Py Unit) := Mutate.replace fun s => Vec2Array.add s (.vec ⟨1, 0⟩)
    let S := System.run ⟨[⟨0, 0⟩, ⟨5, 5⟩], [add, add]⟩ [0, 1, 0, 1]
    (S.result 0).isSome ∧ (S.result 1).isSome ∧ S.shared = [⟨1, 0⟩, ⟨6, 5⟩] := by
  refine ⟨by decide +kernel, by decide +kernel, by decide +kernel⟩

/-- **C98 violated** two threads assign to `line.direction`: the line ends up with a normal that is parallel to its
direction. -/
theorem C98_frame_violated :
    let l : Line ℝ := ⟨⟨⟨1, 0⟩, ⟨0, -1⟩⟩, 1⟩
    let S := System.run ⟨l, [direction putLine (1/2) ⟨0, 1⟩, direction putLine (1/2) ⟨1, 0⟩]⟩ [0, 1, 1, 0]
    S.shared.direction = ⟨1, 0⟩ ∧ S.shared.normal = ⟨1, 0⟩ := by
  intro l
  have hn : ∀ w : Vec2 ℝ, w.length = 1 → w.copy.normalized (1/2) = .ok w ∧ w.isNull (1/2) = false := by
    intro w hw
    have h := setDirection_unit l.toLin w hw
    unfold Lin.setDirection at h
    cases hd : w.copy.normalized (1/2) with
    | error e => rw [hd] at h; cases h
    | ok d =>
      rw [hd] at h
      simp only at h
      split at h
      · cases h
      · rename_i hnull
        have e : d = w := congrArg (fun r : Py Unit × Lin ℝ => r.2.direction) h
        subst e
        exact ⟨rfl, by simpa using hnull⟩
  obtain ⟨a1, a2⟩ := hn ⟨0, 1⟩ (unit_iff.mpr (by norm_num))
  obtain ⟨b1, b2⟩ := hn ⟨1, 0⟩ (unit_iff.mpr (by norm_num))
  have h : ∀ w : Vec2 ℝ, w.copy.normalized (1/2) = .ok w → w.isNull (1/2) = false → direction putLine (1/2) w =
      .act (putLine fun l => { l with direction := w }) fun _ =>
      .act (putLine fun l => { l with normal := -w.perpendicular }) fun _ => .done (.ok ()) := by
    intro w h1 h2
    unfold direction
    rw [h1]
    simp only [h2, Bool.false_eq_true, if_false]
    rfl
  rw [h _ a1 a2, h _ b1 b2]
  intro S
  have hS : S.shared.direction = ⟨1, 0⟩ ∧ S.shared.normal = -(⟨0, 1⟩ : Vec2 ℝ).perpendicular := ⟨rfl, rfl⟩
  refine ⟨hS.1, hS.2.trans ?_⟩
  change (⟨-(-(1 : ℝ)), -(0 : ℝ)⟩ : Vec2 ℝ) = _
  norm_num

/-- The hypotheses of the theorems above are met: both assignments to a square succeed, interleaved. -/
example : ((startWrites square4 [.setItem 2 ⟨9, 9⟩, .setItem (-1) ⟨0, 7⟩]).run
    ((List.range 13).flatMap fun _ => [0, 1])).shared.verts = [⟨0, 0⟩, ⟨4, 0⟩, ⟨9, 9⟩, ⟨0, 7⟩] ∧
    ∀ k < 2, ((startWrites square4 [.setItem 2 ⟨9, 9⟩, .setItem (-1) ⟨0, 7⟩]).run
      ((List.range 13).flatMap fun _ => [0, 1])).result k = some .ok := by
  refine ⟨by decide +kernel, ?_⟩
  intro k hk
  have : k = 0 ∨ k = 1 := by omega
  rcases this with rfl | rfl <;> decide +kernel

/-- The hypotheses of `C98_settled` are met where one of three assignments to a triangle raises KeyError, and one IndexError. -/
example :
    let S := (startWrites tri3 [.setItem 0 ⟨1, 0⟩, .setItem 1 ⟨5, 0⟩, .setItem 3 ⟨9, 9⟩]).run
      ([0, 0, 0, 0, 0] ++ List.replicate 5 1 ++ List.replicate 10 0 ++ [1, 2])
    S.result 0 = some .ok ∧ S.result 1 = some .keyError ∧ S.result 2 = some .indexError ∧
    S.shared.verts = [⟨1, 0⟩, ⟨5, 0⟩, ⟨0, 4⟩] := by
  refine ⟨by decide +kernel, by decide +kernel, by decide +kernel, by decide +kernel⟩

/-- Two operations of an array: the second thread goes first. -/
example : (System.run ⟨([⟨1, 1⟩, ⟨2, 2⟩] : Vecs ℚ), [ArrayOp.insert 1 [7, 7], .delItem 0].map ArrayOp.thread⟩ [1, 0]).shared =
    inTurn [.insert 1 [7, 7], .delItem 0] [⟨1, 1⟩, ⟨2, 2⟩] [1, 0] ∧
    inTurn [.insert 1 [7, 7], .delItem 0] ([⟨1, 1⟩, ⟨2, 2⟩] : Vecs ℚ) [1, 0] = [⟨2, 2⟩, ⟨7, 7⟩] := by
  refine ⟨by decide +kernel, by decide +kernel⟩

example [PyMath ℚ] (order) : AfterInterrupts 0 order square4 := .none _ (.points _ (by decide))

end violated
end Planar
