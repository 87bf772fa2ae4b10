import Verif.Spec.Iter
import Verif.Props.SeqHeap
/- Property C99: iteration. -/
set_option linter.unusedSectionVars false
namespace Planar
open Operand Spec SeqHeap
namespace IterHeap

section
variable {K : Type} [Field K] [LinearOrder K] [IsStrictOrderedRing K] [PyMath K]

/-- The iterator is what the cursor says. -/
def Sees (h : SeqHeap K) (it : ListIter) : Cursor K → Prop
  | .on i p => ∃ c r, it = ⟨some r, p⟩ ∧ h.objs[i]? = some (c, r)
  | .behind vs p => ∃ r, it = ⟨some r, p⟩ ∧ r < h.lists.length ∧ (∀ (i : Nat) (c : SeqCls), h.objs[i]? ≠ some (c, r)) ∧ h.list r = vs
  | .ended => it.list = none

structure Rel (g : IterHeap K) (W : IterWorld K) : Prop where
  inv : SeqHeap.Inv g.heap
  world : seen g.heap = W.world
  iters : List.Forall₂ (Sees g.heap) g.iters W.cursors

theorem affine_length {op : BinOp} {c d : SeqCls} {us vs : List (Vec2 K)} {T : Affine K}
    (h : Operand.inplace op (.seq c us) (.affine T) = .ok (.seq d vs, true)) : vs.length = us.length := by
  by_cases hm : op = .mul
  · subst hm
    have e : Operand.inplace .mul (.seq c us) (.affine T) = .ok (.seq c (T.itransform us), true) := by cases c <;> rfl
    rw [e] at h
    cases h
    exact (C29_seq2_length_partial us 0 ⟨0, 0⟩ T).2
  · have e : Operand.inplaceMeth op (.seq c us) (.affine T) = .ok none := by
      cases c <;> simp [Operand.inplaceMeth, Operand.arrIop, hm, Operand.notImpl] <;> rfl
    unfold Operand.inplace at h
    rw [e] at h
    change (binop op (.seq c us) (.affine T) >>= fun v => (.ok (v, false) : Py (Value K × Bool))) = _ at h
    cases hb : binop op (.seq c us) (.affine T) with
    | error e => rw [hb] at h; cases h
    | ok v =>
      rw [hb] at h
      change (Except.ok (v, false) : Py (Value K × Bool)) = _ at h
      simp at h

/-- Every statement does nothing, makes one object, assigns to the items of one object, or replaces them, and then it is
one of those of `replaces`. -/
theorem shape_replaces {eps : K} {h h' : SeqHeap K} (hi : Inv h) {s : SeqStmt K} (hs : SeqHeap.Step eps h s h') :
    (∃ i vs, replaces eps (seen h) s = some i ∧ h' = h.rebind i vs) ∨
    (replaces eps (seen h) s = none ∧ (h' = h ∨ (∃ c vs, h' = h.alloc c vs) ∨ ∃ i vs, h' = h.write i vs ∧ ¬ Leaves i s ∧
      (Keeps i s → ∀ c us, h.view i = some (c, us) → vs.length = us.length))) := by
  have res : ∀ x : Py (Value K), replaces eps (seen h) s = none → some (h.result x) = some h' →
      (∃ i vs, replaces eps (seen h) s = some i ∧ h' = h.rebind i vs) ∨
      (replaces eps (seen h) s = none ∧ (h' = h ∨ (∃ c vs, h' = h.alloc c vs) ∨ ∃ i vs, h' = h.write i vs ∧ ¬ Leaves i s ∧
      (Keeps i s → ∀ c us, h.view i = some (c, us) → vs.length = us.length))) := by
    intro x hr hx
    simp only [Option.some.injEq] at hx
    subst hx
    rcases shape_result h x with h1 | h1
    · exact .inr ⟨hr, .inl h1⟩
    · exact .inr ⟨hr, .inr (.inl h1)⟩
  have inp : ∀ (op : BinOp) (i : Nat) (l x : Operand K), (∀ T, x = .affine T → ¬ Leaves i s) →
      (∀ T c us, h.view i = some (c, us) → x = .affine T → l = .seq c us) →
      replaces eps (seen h) s = (if replacesAll x (Operand.inplace op l x) then some i else none) →
      h.inplaceOp op i l x = some h' →
      (∃ i vs, replaces eps (seen h) s = some i ∧ h' = h.rebind i vs) ∨
      (replaces eps (seen h) s = none ∧ (h' = h ∨ (∃ c vs, h' = h.alloc c vs) ∨ ∃ i vs, h' = h.write i vs ∧ ¬ Leaves i s ∧
      (Keeps i s → ∀ c us, h.view i = some (c, us) → vs.length = us.length))) := by
    intro op i l x hL hl hr hh
    rw [hr]
    unfold inplaceOp at hh
    rcases he : Operand.inplace op l x with e | ⟨v, b⟩
    · rw [he] at hh
      simp only [Option.some.injEq] at hh
      exact .inr ⟨rfl, .inl hh.symm⟩
    · rw [he] at hh
      cases b
      · have hno : replacesAll x (.ok (v, false)) = false := by cases v <;> rfl
        rw [hno]
        have hh : some (h.result (.ok v)) = some h' := by cases v <;> exact hh
        simp only [Option.some.injEq] at hh
        subst hh
        refine .inr ⟨rfl, ?_⟩
        rcases shape_result h (.ok v) with h1 | h1
        · exact .inl h1
        · exact .inr (.inl h1)
      · cases v
        case seq c vs =>
          by_cases hx : ∃ T, x = .affine T
          · obtain ⟨T, rfl⟩ := hx
            simp only [Option.some.injEq] at hh
            refine .inr ⟨rfl, .inr (.inr ⟨_, _, hh.symm, hL T rfl, fun _ d us hv => ?_⟩)⟩
            rw [hl T d us hv rfl] at he
            exact affine_length he
          · have hh : some (h.rebind i vs) = some h' := by
              cases x <;> first | exact hh | exact absurd ⟨_, rfl⟩ hx
            have hy : replacesAll x (.ok (.seq c vs, true)) = true := by
              cases x <;> first | rfl | exact absurd ⟨_, rfl⟩ hx
            simp only [Option.some.injEq] at hh
            rw [hy]
            exact .inl ⟨i, vs, rfl, hh.symm⟩
        case seqNested => cases x <;> cases hh
        all_goals
          have hh' : ∃ y : Py (Value K), some (h.result y) = some h' := ⟨_, by cases x <;> exact hh⟩
          obtain ⟨y, hy⟩ := hh'
          simp only [Option.some.injEq] at hy
          subst hy
          refine .inr ⟨by simp [replacesAll], ?_⟩
          rcases shape_result h y with h1 | h1
          · exact .inl h1
          · exact .inr (.inl h1)
  cases hs with
  | extend h1 h2 hl => exact .inr ⟨rfl, .inr (.inr ⟨_, _, extend_write hi h1 h2 hl, by simp [Leaves, changes], fun hk => by simp [Keeps, Leaves, changes] at hk⟩)⟩
  | noExtend _ => exact .inr ⟨rfl, .inl rfl⟩
  | exec hne hh =>
    clear hne
    cases s <;> simp only [SeqHeap.exec] at hh
    case make c vs =>
      split_ifs at hh <;> simp only [Option.some.injEq] at hh
      · exact .inr ⟨rfl, .inl hh.symm⟩
      · exact .inr ⟨rfl, .inr (.inl ⟨_, _, hh.symm⟩)⟩
    case convert c j =>
      split at hh
      · split_ifs at hh <;> simp only [Option.some.injEq] at hh
        · exact .inr ⟨rfl, .inl hh.symm⟩
        · exact .inr ⟨rfl, .inr (.inl ⟨_, _, hh.symm⟩)⟩
      · simp only [Option.some.injEq] at hh; exact .inr ⟨rfl, .inl hh.symm⟩
    case fromPoints c j =>
      split at hh <;> simp only [Option.some.injEq] at hh
      · exact .inr ⟨rfl, .inr (.inl ⟨_, _, hh.symm⟩)⟩
      · exact .inr ⟨rfl, .inl hh.symm⟩
    case copy j =>
      split at hh <;> simp only [Option.some.injEq] at hh
      · exact .inr ⟨rfl, .inr (.inl ⟨_, _, hh.symm⟩)⟩
      · exact .inr ⟨rfl, .inl hh.symm⟩
    case slice j a b st =>
      split at hh
      · split at hh <;> simp only [Option.some.injEq] at hh
        · exact .inr ⟨rfl, .inr (.inl ⟨_, _, hh.symm⟩)⟩
        · exact .inr ⟨rfl, .inl hh.symm⟩
      · simp only [Option.some.injEq] at hh; exact .inr ⟨rfl, .inl hh.symm⟩
    case extend i j => simp only [Option.some.injEq] at hh; exact .inr ⟨rfl, .inl hh.symm⟩
    case normalize i =>
      simp only [replaces, seen_get]
      split at hh
      · rename_i vs hv
        rw [hv]
        split at hh <;> rename_i he <;> simp only [Option.some.injEq] at hh
        · exact .inl ⟨i, _, by simp [he], hh.symm⟩
        · exact .inr ⟨by simp [he], .inl hh.symm⟩
      · rename_i hv
        simp only [Option.some.injEq] at hh
        refine .inr ⟨?_, .inl hh.symm⟩
        split
        · rename_i vs hv'; exact absurd hv' (hv vs)
        · rfl
    case clamp i lo hi' =>
      simp only [replaces, seen_get]
      split at hh
      · rename_i vs hv
        rw [hv]
        split at hh <;> rename_i he <;> simp only [Option.some.injEq] at hh
        · exact .inl ⟨i, _, by simp [he], hh.symm⟩
        · exact .inr ⟨by simp [he], .inl hh.symm⟩
      · rename_i hv
        simp only [Option.some.injEq] at hh
        refine .inr ⟨?_, .inl hh.symm⟩
        split
        · rename_i vs hv'; exact absurd hv' (hv vs)
        · rfl
    case binop op i j =>
      split at hh
      · exact res _ rfl hh
      · simp only [Option.some.injEq] at hh; exact .inr ⟨rfl, .inl hh.symm⟩
    case binopWith op i x =>
      split at hh
      · exact res _ rfl hh
      · simp only [Option.some.injEq] at hh; exact .inr ⟨rfl, .inl hh.symm⟩
    case rbinopWith op x i =>
      split at hh
      · exact res _ rfl hh
      · simp only [Option.some.injEq] at hh; exact .inr ⟨rfl, .inl hh.symm⟩
    case inplace op i j =>
      split at hh
      · rename_i c vs d ws h1 h2
        exact inp op i _ _ (by rintro T ⟨⟩) (by rintro T _ _ _ ⟨⟩) (by simp only [replaces, seen_get, h1, h2]) hh
      · rename_i hno
        simp only [Option.some.injEq] at hh
        refine .inr ⟨?_, .inl hh.symm⟩
        simp only [replaces, seen_get]
    case inplaceWith op i x =>
      split at hh
      · rename_i c vs h1
        exact inp op i _ _ (by rintro T rfl; simp [Leaves, changes]) (by rintro T d us hv -; rw [h1] at hv; cases hv; rfl)
          (by simp only [replaces, seen_get, h1]) hh
      · rename_i h1
        simp only [Option.some.injEq] at hh
        refine .inr ⟨?_, .inl hh.symm⟩
        simp only [replaces, seen_get, h1]
    case setItem i k v =>
      split at hh <;> simp only [Option.some.injEq] at hh
      · rename_i c vs hv
        refine .inr ⟨rfl, .inr (.inr ⟨_, _, hh.symm, by simp [Leaves, changes], fun _ d us hu => ?_⟩)⟩
        rw [hv] at hu; cases hu
        exact (C29_seq2_length_partial vs k v Affine.identity).1
      · exact .inr ⟨rfl, .inl hh.symm⟩
    all_goals
      split at hh <;> simp only [Option.some.injEq] at hh
      · exact .inr ⟨rfl, .inr (.inr ⟨_, _, hh.symm, by simp [Leaves, changes], fun hk => by simp [Keeps, Leaves, changes] at hk⟩)⟩
      · exact .inr ⟨rfl, .inl hh.symm⟩

theorem sees_alloc {h : SeqHeap K} (c : SeqCls) (vs : List (Vec2 K)) {it : ListIter} {cur : Cursor K}
    (hs : Sees h it cur) : Sees (h.alloc c vs) it cur := by
  cases cur with
  | on i p =>
    obtain ⟨d, r, e, ho⟩ := hs
    exact ⟨d, r, e, by rw [SeqHeap.alloc, List.getElem?_append_left (List.getElem?_eq_some_iff.mp ho).1, ho]⟩
  | behind us p =>
    obtain ⟨r, e, hr, hno, hl⟩ := hs
    refine ⟨r, e, by simp [SeqHeap.alloc]; omega, fun i d ho => ?_, by rw [← hl]; exact list_append_lt hr⟩
    simp only [SeqHeap.alloc] at ho
    by_cases hlt : i < h.objs.length
    · rw [List.getElem?_append_left hlt] at ho; exact hno i d ho
    · rw [List.getElem?_append_right (by omega)] at ho
      cases hk : i - h.objs.length with
      | zero => rw [hk] at ho; simp at ho; omega
      | succ n => rw [hk] at ho; simp at ho
  | ended => exact hs

theorem sees_write {h : SeqHeap K} (i : Nat) (vs : List (Vec2 K)) {it : ListIter} {cur : Cursor K}
    (hs : Sees h it cur) : Sees (h.write i vs) it cur := by
  cases cur with
  | on j p =>
    obtain ⟨d, r, e, ho⟩ := hs
    exact ⟨d, r, e, by rw [objs_write, ho]⟩
  | behind us p =>
    obtain ⟨r, e, hr, hno, hl⟩ := hs
    refine ⟨r, e, by rw [length_write]; exact hr, fun j d ho => hno j d (by rw [objs_write] at ho; exact ho), ?_⟩
    rw [← hl]
    unfold SeqHeap.write
    cases ho : h.objs[i]? with
    | none => rfl
    | some o =>
      obtain ⟨d, q⟩ := o
      have hne : r ≠ q := fun e => hno i d (by rw [ho, e])
      exact getD_set_ne hne
  | ended => exact hs

theorem sees_rebind {h : SeqHeap K} (hi : Inv h) (i : Nat) (hex : (h.view i).isSome) (vs : List (Vec2 K)) {it : ListIter}
    {cur : Cursor K} (hs : Sees h it cur) : Sees (h.rebind i vs) it (cur.leave (seen h) (some i)) := by
  unfold SeqHeap.rebind
  cases hoi : h.objs[i]? with
  | none => simp [SeqHeap.view, hoi] at hex
  | some o =>
    obtain ⟨c, q⟩ := o
    have hq := hi.bound _ _ _ hoi
    have hilt : i < h.objs.length := (List.getElem?_eq_some_iff.mp hoi).1
    have objs : ∀ j (d : SeqCls) r, (h.objs.set i (c, h.lists.length))[j]? = some (d, r) →
        (j = i ∧ r = h.lists.length) ∨ (j ≠ i ∧ h.objs[j]? = some (d, r)) := by
      intro j d r hj
      by_cases e : j = i
      · subst e
        rw [List.getElem?_set_self hilt] at hj
        cases hj; exact .inl ⟨rfl, rfl⟩
      · rw [List.getElem?_set_ne (Ne.symm e)] at hj
        exact .inr ⟨e, hj⟩
    cases cur with
    | on j p =>
      obtain ⟨d, r, e, ho⟩ := hs
      by_cases hij : i = j
      · subst hij
        rw [hoi] at ho; cases ho
        simp only [Cursor.leave, if_true]
        refine ⟨q, e, by simp; omega, fun j d hj => ?_, ?_⟩
        · rcases objs j d q hj with ⟨-, h1⟩ | ⟨h1, h2⟩
          · omega
          · exact h1 (hi.inj _ _ _ _ _ h2 hoi)
        · rw [list_append_lt hq]
          simp [World.items, seen_get, SeqHeap.view, hoi]
      · simp only [Cursor.leave, Option.some.injEq, hij, if_false]
        exact ⟨d, r, e, by simp only; rw [List.getElem?_set_ne hij, ho]⟩
    | behind us p =>
      obtain ⟨r, e, hr, hno, hl⟩ := hs
      refine ⟨r, e, by simp; omega, fun j d hj => ?_, by rw [← hl]; exact list_append_lt hr⟩
      rcases objs j d r hj with ⟨-, h1⟩ | ⟨-, h2⟩
      · omega
      · exact hno j d h2
    | ended => exact hs

theorem leave_none (w : World K) (c : Cursor K) : c.leave w none = c := by
  cases c <;> simp [Cursor.leave]

theorem replaces_exists {eps : K} {h : SeqHeap K} {s : SeqStmt K} {i : Nat} (hr : replaces eps (seen h) s = some i) :
    (h.view i).isSome := by
  have : ∀ j, replaces eps (seen h) s = some j → (h.view j).isSome := by
    intro j hj
    cases s <;> simp only [replaces, seen_get] at hj <;> try cases hj
    all_goals
      split at hj
      · rename_i hv
        split_ifs at hj
        simp_all
      · cases hj
  exact this i hr

theorem rel_stmt {eps : K} {h h' : SeqHeap K} {its : List ListIter} {W : IterWorld K} (hrel : Rel ⟨h, its⟩ W) {s : SeqStmt K}
    (hs : SeqHeap.Step eps h s h') :
    Rel ⟨h', its⟩ ⟨seen h', W.cursors.map (Cursor.leave W.world (replaces eps W.world s))⟩ := by
  obtain ⟨hi, hw, hits⟩ := hrel
  simp only at hi hw hits
  refine ⟨inv_step hi hs, rfl, ?_⟩
  rw [← hw]
  rw [List.forall₂_map_right_iff]
  rcases shape_replaces hi hs with ⟨i, vs, hr, rfl⟩ | ⟨hr, hsh⟩
  · rw [hr]
    exact hits.imp fun it c h => sees_rebind hi i (replaces_exists hr) vs h
  · rw [hr]
    refine hits.imp fun it c h => ?_
    rw [leave_none]
    rcases hsh with rfl | ⟨d, vs, rfl⟩ | ⟨i, vs, rfl, -⟩
    · exact h
    · exact sees_alloc d vs h
    · exact sees_write i vs h

theorem rel_exec {eps : K} {g : IterHeap K} {W : IterWorld K} (hrel : Rel g W) {s : IterStmt K} (hs : ∀ t, s ≠ .stmt t) :
    ∃ W', W.step eps s = some ((g.exec s).1, W') ∧ Rel (g.exec s).2 W' := by
  obtain ⟨hi, hw, hits⟩ := hrel
  cases s with
  | stmt t => exact absurd rfl (hs t)
  | iter i =>
    simp only [IterWorld.step, IterHeap.exec]
    cases ho : g.heap.objs[i]? with
    | none =>
      have : ¬ i < W.world.length := by
        rw [← hw]; simp only [seen, List.length_map]
        exact fun h => by rw [List.getElem?_eq_getElem h] at ho; cases ho
      rw [if_neg this]
      exact ⟨W, rfl, hi, hw, hits⟩
    | some o =>
      obtain ⟨c, r⟩ := o
      have : i < W.world.length := by
        rw [← hw]; simp only [seen, List.length_map]
        exact (List.getElem?_eq_some_iff.mp ho).1
      rw [if_pos this]
      exact ⟨_, rfl, hi, hw, List.rel_append hits (.cons ⟨c, r, rfl, ho⟩ .nil)⟩
  | next k =>
    simp only [IterWorld.step, IterHeap.exec]
    have hlen := hits.length_eq
    cases hc : W.cursors[k]? with
    | none =>
      have hk : g.iters[k]? = none := by
        rw [List.getElem?_eq_none_iff] at hc ⊢; omega
      rw [hk]
      exact ⟨W, rfl, hi, hw, hits⟩
    | some cur =>
      have hklt : k < W.cursors.length := (List.getElem?_eq_some_iff.mp hc).1
      have hk : g.iters[k]? = some g.iters[k] := List.getElem?_eq_getElem (by omega)
      have hsee : Sees g.heap g.iters[k] cur := by
        have := (List.forall₂_iff_get.mp hits).2 k (by omega) hklt
        have e : W.cursors.get ⟨k, hklt⟩ = cur := by
          have := (List.getElem?_eq_some_iff.mp hc).2; simpa using this
        rw [e] at this
        exact this
      have set : ∀ (it : ListIter) (c' : Cursor K), Sees g.heap it c' →
          List.Forall₂ (Sees g.heap) (g.iters.set k it) (W.cursors.set k c') := by
        intro it c' h
        rw [List.forall₂_iff_get]
        refine ⟨by simp [hlen], fun j h1 h2 => ?_⟩
        simp only [List.get_eq_getElem, List.getElem_set]
        split_ifs
        · exact h
        · exact (List.forall₂_iff_get.mp hits).2 j (by simpa using h1) (by simpa using h2)
      rw [hk]
      generalize g.iters[k] = it at hsee
      cases cur with
      | on i p =>
        obtain ⟨c, r, rfl, ho⟩ := hsee
        have hit : W.world.items i = g.heap.list r := by
          rw [← hw]; simp [World.items, seen_get, SeqHeap.view, ho]
        simp only [Cursor.next, hit]
        cases hv : (g.heap.list r)[p]? with
        | none => exact ⟨_, rfl, hi, hw, set _ _ rfl⟩
        | some v => exact ⟨_, rfl, hi, hw, set _ _ ⟨c, r, rfl, ho⟩⟩
      | behind vs p =>
        obtain ⟨r, rfl, hr, hno, hl⟩ := hsee
        simp only [Cursor.next, hl]
        cases hv : vs[p]? with
        | none => exact ⟨_, rfl, hi, hw, set _ _ rfl⟩
        | some v => exact ⟨_, rfl, hi, hw, set _ _ ⟨r, rfl, hr, hno, hl⟩⟩
      | ended =>
        obtain ⟨l, p⟩ := it
        have : l = none := hsee
        subst this
        refine ⟨_, rfl, hi, hw, ?_⟩
        have : W.cursors.set k .ended = W.cursors := by
          rw [← (List.getElem?_eq_some_iff.mp hc).2]; simp
        rw [show (Cursor.next W.world (.ended : Cursor K)).2 = .ended from rfl, this]
        exact hits
  | len i =>
    simp only [IterWorld.step, IterHeap.exec, ← hw, seen_get]
    cases g.heap.view i with
    | none => exact ⟨W, rfl, hi, hw, hits⟩
    | some o => exact ⟨W, rfl, hi, hw, hits⟩
  | bool i =>
    simp only [IterWorld.step, IterHeap.exec, ← hw, seen_get]
    cases g.heap.view i with
    | none => exact ⟨W, rfl, hi, hw, hits⟩
    | some o =>
      obtain ⟨c, vs⟩ := o
      refine ⟨W, ?_, hi, hw, hits⟩
      cases vs <;> simp

theorem rel_step {eps : K} {g g' : IterHeap K} {W : IterWorld K} (hrel : Rel g W) {s : IterStmt K} {o : IterOut K}
    (hs : IterHeap.Step eps g s o g') : ∃ W', W.step eps s = some (o, W') ∧ Rel g' W' := by
  cases hs with
  | @stmt h h' its s hst =>
    refine ⟨_, ?_, rel_stmt hrel hst⟩
    have := seen_step hrel.inv hst
    rw [hrel.world] at this
    simp only [IterWorld.step, this, Option.map_some]
  | exec hne => exact rel_exec hrel hne

theorem step_rel {eps : K} {g : IterHeap K} {W W' : IterWorld K} (hrel : Rel g W) {s : IterStmt K} {o : IterOut K}
    (hs : W.step eps s = some (o, W')) : ∃ g', IterHeap.Step eps g s o g' ∧ Rel g' W' := by
  have key : ∀ o' g', IterHeap.Step eps g s o' g' → ∃ g', IterHeap.Step eps g s o g' ∧ Rel g' W' := by
    intro o' g' h
    obtain ⟨W'', h1, h2⟩ := rel_step hrel h
    rw [hs] at h1
    cases h1
    exact ⟨g', h, h2⟩
  by_cases hst : ∃ t, s = .stmt t
  · obtain ⟨t, rfl⟩ := hst
    simp only [IterWorld.step] at hs
    obtain ⟨w', h1, -⟩ := Option.map_eq_some_iff.mp hs
    rw [← hrel.world] at h1
    obtain ⟨h', h2, -⟩ := step_seen hrel.inv h1
    exact key _ _ (.stmt (its := g.iters) h2)
  · exact key _ _ (.exec fun t h => hst ⟨t, h⟩)

theorem rel_runs {eps : K} {g g' : IterHeap K} {W : IterWorld K} {p : List (IterStmt K)} {os : List (IterOut K)}
    (hrel : Rel g W) (hr : IterHeap.Runs eps g p os g') : ∃ W', W.run eps p = some (os, W') ∧ Rel g' W' := by
  induction hr generalizing W with
  | nil => exact ⟨W, rfl, hrel⟩
  | cons hs _ ih =>
    obtain ⟨W₁, h1, h2⟩ := rel_step hrel hs
    obtain ⟨W', h3, h4⟩ := ih h2
    exact ⟨W', by simp only [IterWorld.run, h1, Option.bind_some, h3, Option.map_some], h4⟩

theorem runs_rel {eps : K} {g : IterHeap K} {W W' : IterWorld K} {p : List (IterStmt K)} {os : List (IterOut K)}
    (hrel : Rel g W) (hr : W.run eps p = some (os, W')) : ∃ g', IterHeap.Runs eps g p os g' ∧ Rel g' W' := by
  induction p generalizing g W os with
  | nil => cases hr; exact ⟨g, .nil, hrel⟩
  | cons s p ih =>
    simp only [IterWorld.run] at hr
    obtain ⟨⟨o, W₁⟩, h1, h2⟩ := Option.bind_eq_some_iff.mp hr
    obtain ⟨⟨os', W''⟩, h3, h4⟩ := Option.map_eq_some_iff.mp h2
    cases h4
    obtain ⟨g₁, h5, h6⟩ := step_rel hrel h1
    obtain ⟨g', h7, h8⟩ := ih h6 h3
    exact ⟨g', .cons h5 h7, h8⟩

theorem rel_empty : Rel (⟨⟨[], []⟩, []⟩ : IterHeap K) ⟨[], []⟩ := ⟨inv_empty, rfl, .nil⟩

/-! ### theorems -/

/-- **C99** a program that starts without objects shows `outs` and ends with the objects `w` exactly when the machine without a
heap says so, in which an iterator follows its object item by item and is left behind, with the old items, when the items
are replaced at once. (A program in which an `extend` does not end shows nothing in either.) -/
theorem C99_values (eps : K) (prog : List (IterStmt K)) (outs : List (IterOut K)) (w : World K) :
    (∃ g, IterHeap.Runs eps ⟨⟨[], []⟩, []⟩ prog outs g ∧ seen g.heap = w) ↔
    ∃ cs, IterWorld.run eps ⟨[], []⟩ prog = some (outs, ⟨w, cs⟩) := by
  constructor
  · rintro ⟨g, hr, rfl⟩
    obtain ⟨W', h1, h2⟩ := rel_runs rel_empty hr
    exact ⟨W'.cursors, by rw [h1, h2.world]⟩
  · rintro ⟨cs, h⟩
    obtain ⟨g, h1, h2⟩ := runs_rel rel_empty h
    exact ⟨g, h1, h2.world⟩

/-- **C99** `len` and `bool` tell the number of items, whatever happened before. -/
theorem C99_len (eps : K) (before : List (IterStmt K)) (outs : List (IterOut K)) (g : IterHeap K)
    (hb : IterHeap.Runs eps ⟨⟨[], []⟩, []⟩ before outs g) (i : Nat) (c : SeqCls) (vs : List (Vec2 K))
    (hi : (seen g.heap)[i]? = some (c, vs)) :
    (∀ o g', IterHeap.Step eps g (.len i) o g' → o = .len vs.length ∧ g' = g) ∧
    (∀ o g', IterHeap.Step eps g (.bool i) o g' → o = .bool (decide (0 < vs.length)) ∧ g' = g) := by
  rw [seen_get] at hi
  constructor
  · intro o g' h
    cases h with
    | exec _ => simp [IterHeap.exec, hi]
  · intro o g' h
    cases h with
    | exec _ =>
      cases vs <;> simp [IterHeap.exec, hi]

/-- The iterator goes through these items, and is at `p`. -/
def At (i : Nat) (ok : List (Vec2 K) → Prop) (w : World K) (p : Nat) : Cursor K → Prop
  | .on j q => j = i ∧ q = p ∧ ∃ c vs, w[i]? = some (c, vs) ∧ ok vs
  | .behind vs q => q = p ∧ ok vs
  | .ended => ∃ vs, ok vs ∧ vs.length ≤ p

theorem at_stmt {eps : K} {h h' : SeqHeap K} (hi : Inv h) {s : SeqStmt K} (hs : SeqHeap.Step eps h s h') {i : Nat}
    {ok : List (Vec2 K) → Prop}
    (hL : Leaves i s ∨ (Keeps i s ∧ ∀ us vs : List (Vec2 K), us.length = vs.length → ok vs → ok us))
    {p : Nat} {cur : Cursor K} (hc : At i ok (seen h) p cur) :
    At i ok (seen h') p (cur.leave (seen h) (replaces eps (seen h) s)) := by
  cases cur with
  | on j q =>
    obtain ⟨rfl, rfl, c, vs, hw, hok⟩ := hc
    rcases shape_replaces hi hs with ⟨k, us, hr, rfl⟩ | ⟨hr, hsh⟩
    · rw [hr]
      by_cases hk : k = j
      · subst hk
        simp only [Cursor.leave, if_true, World.items, hw]
        exact ⟨rfl, hok⟩
      · simp only [Cursor.leave, Option.some.injEq, hk, if_false]
        exact ⟨rfl, rfl, c, vs, by rw [seen_rebind hi, put_get, if_neg (Ne.symm hk), hw], hok⟩
    · rw [hr, leave_none]
      rcases hsh with rfl | ⟨d, us, rfl⟩ | ⟨k, us, rfl, hnl, hkeep⟩
      · exact ⟨rfl, rfl, c, vs, hw, hok⟩
      · refine ⟨rfl, rfl, c, vs, ?_, hok⟩
        rw [seen_alloc hi, List.getElem?_append_left (List.getElem?_eq_some_iff.mp hw).1, hw]
      · by_cases hk : k = j
        · subst hk
          rcases hL with hL | ⟨hL, hlen⟩
          · exact absurd hL hnl
          · refine ⟨rfl, rfl, c, us, by rw [seen_write hi, put_get, if_pos rfl, hw]; rfl, ?_⟩
            exact hlen us vs (hkeep hL c vs (by rw [← seen_get, hw])) hok
        · exact ⟨rfl, rfl, c, vs, by rw [seen_write hi, put_get, if_neg (Ne.symm hk), hw], hok⟩
  | behind us q => exact hc
  | ended => exact hc

/-- What an iterator shows that goes through items with the property `ok`. -/
theorem at_runs {eps : K} {g g' : IterHeap K} {W : IterWorld K} {prog : List (IterStmt K)} {outs : List (IterOut K)}
    (hrel : Rel g W) (hr : IterHeap.Runs eps g prog outs g') {i k p : Nat} {ok : List (Vec2 K) → Prop}
    (hL : ∀ s, .stmt s ∈ prog → Leaves i s ∨ (Keeps i s ∧ ∀ us vs : List (Vec2 K), us.length = vs.length → ok vs → ok us))
    (hlen : ∀ us vs : List (Vec2 K), ok us → ok vs → us.length = vs.length)
    {cur : Cursor K} (hk : W.cursors[k]? = some cur) (hc : At i ok W.world p cur) :
    ∀ m o, (shown k prog outs)[m]? = some o → ∃ vs, ok vs ∧ o = match vs[p + m]? with
      | some v => .item v
      | none => .stop := by
  induction hr generalizing W p cur with
  | nil => intro m o h; simp [shown] at h
  | @cons g g₁ g' s o p' os hs hr ih =>
    obtain ⟨W₁, h1, h2⟩ := rel_step hrel hs
    have hL' : ∀ s, .stmt s ∈ p' → _ := fun t ht => hL t (List.mem_cons_of_mem _ ht)
    have same : ∀ cur', W₁.cursors[k]? = some cur' → At i ok W₁.world p cur' → shown k (s :: p') (o :: os) = shown k p' os →
        ∀ m o', (shown k (s :: p') (o :: os))[m]? = some o' → ∃ vs, ok vs ∧ o' = match vs[p + m]? with
          | some v => .item v
          | none => .stop := fun cur' ha hb e => by rw [e]; exact ih h2 hL' ha hb
    cases s with
    | stmt t =>
      refine same (cur.leave W.world (replaces eps W.world t)) ?_ ?_ rfl
      · simp only [IterWorld.step] at h1
        obtain ⟨w', -, e⟩ := Option.map_eq_some_iff.mp h1
        cases e
        simp [List.getElem?_map, hk]
      · cases hs with
        | stmt hst =>
          have hw := hrel.world
          have hw₁ := h2.world
          simp only at hw hw₁
          rw [← hw] at hc ⊢
          rw [← hw₁]
          exact at_stmt hrel.inv hst (hL t (List.mem_cons_self ..)) hc
        | exec hne => exact absurd rfl (hne t)
    | iter j =>
      simp only [IterWorld.step] at h1
      split_ifs at h1 <;> cases h1
      · exact same cur (by rw [List.getElem?_append_left (List.getElem?_eq_some_iff.mp hk).1, hk]) hc rfl
      · exact same cur hk hc rfl
    | len j =>
      simp only [IterWorld.step] at h1
      split at h1 <;> cases h1 <;> exact same cur hk hc rfl
    | bool j =>
      simp only [IterWorld.step] at h1
      split at h1 <;> cases h1 <;> exact same cur hk hc rfl
    | next j =>
      simp only [IterWorld.step] at h1
      by_cases hj : j = k
      · subst hj
        rw [hk] at h1
        cases h1
        have hcur : (W.cursors.set j (cur.next W.world).2)[j]? = some (cur.next W.world).2 :=
          List.getElem?_set_self (List.getElem?_eq_some_iff.mp hk).1
        have hstep : At i ok W.world (p + 1) (cur.next W.world).2 ∧ ∃ vs, ok vs ∧ (cur.next W.world).1 = match vs[p]? with
            | some v => .item v
            | none => .stop := by
          have stop : ∀ vs, ok vs → vs[p]? = none → At i ok W.world (p + 1) (.ended : Cursor K) := fun vs h1 h2 =>
            ⟨vs, h1, by rw [List.getElem?_eq_none_iff] at h2; omega⟩
          cases cur with
          | on a q =>
            obtain ⟨rfl, rfl, c, vs, hw, hok⟩ := hc
            have hit : W.world.items a = vs := by simp [World.items, hw]
            simp only [Cursor.next, hit]
            cases hv : vs[q]? with
            | none => exact ⟨stop vs hok hv, vs, hok, by rw [hv]⟩
            | some v => exact ⟨⟨rfl, rfl, c, vs, hw, hok⟩, vs, hok, by rw [hv]⟩
          | behind us q =>
            obtain ⟨rfl, hok⟩ := hc
            simp only [Cursor.next]
            cases hv : us[q]? with
            | none => exact ⟨stop us hok hv, us, hok, by rw [hv]⟩
            | some v => exact ⟨⟨rfl, hok⟩, us, hok, by rw [hv]⟩
          | ended =>
            obtain ⟨vs, hok, hle⟩ := hc
            have : vs[p]? = none := List.getElem?_eq_none hle
            exact ⟨stop vs hok this, vs, hok, by rw [this]; rfl⟩
        intro m o' hm
        simp only [shown, if_true] at hm
        cases m with
        | zero =>
          simp only [List.getElem?_cons_zero, Option.some.injEq] at hm
          subst hm
          exact hstep.2
        | succ m =>
          have := ih h2 hL' hcur hstep.1 m o' (by simpa using hm)
          rwa [show p + (m + 1) = p + 1 + m by omega]
      · have hsh : shown k (.next j :: p') (o :: os) = shown k p' os := by simp [shown, hj]
        cases hcj : W.cursors[j]? with
        | none => rw [hcj] at h1; cases h1; exact same cur hk hc hsh
        | some d =>
          rw [hcj] at h1; cases h1
          exact same cur (by simp only; rw [List.getElem?_set_ne hj, hk]) hc hsh

theorem iter_rel {eps : K} {before : List (IterStmt K)} {outs : List (IterOut K)} {g g₁ : IterHeap K}
    (hb : IterHeap.Runs eps ⟨⟨[], []⟩, []⟩ before outs g) {i : Nat} {c : SeqCls} {vs : List (Vec2 K)}
    (hi : (seen g.heap)[i]? = some (c, vs)) {o : IterOut K} (hit : IterHeap.Step eps g (.iter i) o g₁) :
    ∃ W, Rel g₁ W ∧ W.cursors[g.iters.length]? = some (.on i 0) ∧ W.world[i]? = some (c, vs) := by
  obtain ⟨W, -, hrel⟩ := rel_runs rel_empty hb
  obtain ⟨W₁, h1, h2⟩ := rel_step hrel hit
  rw [hrel.world] at hi
  simp only [IterWorld.step, (List.getElem?_eq_some_iff.mp hi).1, if_true] at h1
  cases h1
  refine ⟨_, h2, ?_, hi⟩
  simp only
  rw [hrel.iters.length_eq]
  simp

/-- **C99** iterating over an object shows its items in order and then the end, forever, whatever else happens between the
calls of `next` (also to iterators and objects made later), as long as no item of the object is assigned, added or removed.
Statements that replace all its items at once do no harm: iteration goes on with the items there were. -/
theorem C99_undisturbed (eps : K) (before prog : List (IterStmt K)) (outs₀ outs : List (IterOut K)) (g g₁ g' : IterHeap K)
    (hb : IterHeap.Runs eps ⟨⟨[], []⟩, []⟩ before outs₀ g) (i : Nat) (c : SeqCls) (vs : List (Vec2 K))
    (hi : (seen g.heap)[i]? = some (c, vs)) (o : IterOut K) (hit : IterHeap.Step eps g (.iter i) o g₁)
    (hr : IterHeap.Runs eps g₁ prog outs g') (hL : ∀ s, .stmt s ∈ prog → Leaves i s) (m : Nat) (a : IterOut K)
    (ha : (shown g.iters.length prog outs)[m]? = some a) :
    a = match vs[m]? with
      | some v => .item v
      | none => .stop := by
  obtain ⟨W, hrel, hk, hw⟩ := iter_rel hb hi hit
  obtain ⟨us, rfl, h⟩ := at_runs (ok := fun us => us = vs) hrel hr (fun s hs => .inl (hL s hs)) (fun _ _ h h' => by rw [h, h'])
    hk ⟨rfl, rfl, c, vs, hw, rfl⟩ m a ha
  simpa using h

/-- **C99** a loop over an object with `n` items whose body assigns to items (`obj[j] = v`), transforms the object in place
(`obj *= T`) or replaces all items, but does not add or remove some, is run `n` times. -/
theorem C99_ends (eps : K) (before prog : List (IterStmt K)) (outs₀ outs : List (IterOut K)) (g g₁ g' : IterHeap K)
    (hb : IterHeap.Runs eps ⟨⟨[], []⟩, []⟩ before outs₀ g) (i : Nat) (c : SeqCls) (vs : List (Vec2 K))
    (hi : (seen g.heap)[i]? = some (c, vs)) (o : IterOut K) (hit : IterHeap.Step eps g (.iter i) o g₁)
    (hr : IterHeap.Runs eps g₁ prog outs g') (hL : ∀ s, .stmt s ∈ prog → Keeps i s) (m : Nat) (a : IterOut K)
    (ha : (shown g.iters.length prog outs)[m]? = some a) :
    (m < vs.length → ∃ v, a = .item v) ∧ (vs.length ≤ m → a = .stop) := by
  obtain ⟨W, hrel, hk, hw⟩ := iter_rel hb hi hit
  obtain ⟨us, h1, h⟩ := at_runs (ok := fun us => us.length = vs.length) hrel hr
    (fun s hs => .inr ⟨hL s hs, fun _ _ h h' => h.trans h'⟩) (fun _ _ h h' => h.trans h'.symm)
    hk ⟨rfl, rfl, c, vs, hw, rfl⟩ m a ha
  rw [Nat.zero_add] at h
  constructor
  · intro hm
    rw [List.getElem?_eq_getElem (by omega)] at h
    exact ⟨_, h⟩
  · intro hm
    rw [List.getElem?_eq_none (by omega)] at h
    exact h

/-- **C99** `for v in array: array.append(w)` does not end, if the array is not empty (as for lists): each `next` shows an item. -/
theorem C99_append (eps : K) (before : List (IterStmt K)) (outs₀ outs : List (IterOut K)) (g g₁ g' : IterHeap K)
    (hb : IterHeap.Runs eps ⟨⟨[], []⟩, []⟩ before outs₀ g) (i : Nat) (vs : List (Vec2 K))
    (hi : (seen g.heap)[i]? = some (.array, vs)) (hne : vs ≠ []) (o : IterOut K) (hit : IterHeap.Step eps g (.iter i) o g₁)
    (ws : List (Vec2 K))
    (hr : IterHeap.Runs eps g₁ (ws.flatMap fun w => [.next g.iters.length, .stmt (.append i w)]) outs g') :
    ∀ a ∈ shown g.iters.length (ws.flatMap fun w => [.next g.iters.length, .stmt (.append i w)]) outs, ∃ v, a = .item v := by
  obtain ⟨W, hrel, hk, hw⟩ := iter_rel hb hi hit
  have key : ∀ (ws : List (Vec2 K)) (W : IterWorld K) (p : Nat) (us : List (Vec2 K)) (outs : List (IterOut K)) (W' : IterWorld K),
      W.cursors[g.iters.length]? = some (.on i p) → W.world[i]? = some (.array, us) → p < us.length →
      W.run eps (ws.flatMap fun w => [.next g.iters.length, .stmt (.append i w)]) = some (outs, W') →
      ∀ a ∈ shown g.iters.length (ws.flatMap fun w => [.next g.iters.length, .stmt (.append i w)]) outs, ∃ v, a = .item v := by
    intro ws
    induction ws with
    | nil => intro W p us outs W' _ _ _ h a ha; simp [shown] at ha
    | cons w ws ih =>
      intro W p us outs W' hc hu hp h
      have hit : W.world.items i = us := by simp [World.items, hu]
      have hv : us[p]? = some us[p] := List.getElem?_eq_getElem hp
      simp only [List.flatMap_cons, List.cons_append, List.nil_append, IterWorld.run, IterWorld.step, hc, Cursor.next, hit, hv,
        Option.bind_some, World.step, hu, Option.map_some] at h
      obtain ⟨⟨o1, W1⟩, h1, h2⟩ := Option.map_eq_some_iff.mp h
      obtain ⟨⟨o2, W2⟩, h3, h4⟩ := Option.map_eq_some_iff.mp h1
      cases h2
      cases h4
      simp only [List.flatMap_cons, List.cons_append, List.nil_append, shown, if_true, List.mem_cons]
      rintro a (rfl | ha)
      · exact ⟨_, rfl⟩
      · refine ih _ (p + 1) (us ++ [w]) _ _ ?_ ?_ (by simp; omega) h3 a ha
        · simp only [List.getElem?_map, List.getElem?_set_self (List.getElem?_eq_some_iff.mp hc).1, Option.map_some]
          rfl
        · simp only [put_get, if_true, hu, Option.map_some]
  obtain ⟨W', h, -⟩ := rel_runs hrel hr
  exact key ws W 0 vs outs W' hk hw (List.length_pos_iff.mpr hne) h

/-- A loop whose body appends and assigns: both are seen. -/
example (eps : K) : ∃ g, IterHeap.Runs eps ⟨⟨[], []⟩, []⟩
      [.stmt (.make .array [⟨1, 2⟩, ⟨3, 4⟩]), .iter 0, .next 0, .stmt (.append 0 ⟨5, 6⟩), .stmt (.setItem 0 1 ⟨7, 8⟩),
       .next 0, .next 0, .len 0]
      [.nothing, .nothing, .item ⟨1, 2⟩, .nothing, .nothing, .item ⟨7, 8⟩, .item ⟨5, 6⟩, .len 3] g ∧
    seen g.heap = [(.array, [⟨1, 2⟩, ⟨7, 8⟩, ⟨5, 6⟩])] := by
  rw [C99_values]
  refine ⟨[.on 0 3], ?_⟩
  simp [IterWorld.run, IterWorld.step, World.step, World.put, Vec2Array.setItem, pySet, pyIndex, replaces, Cursor.next,
    Cursor.leave, World.items]

/-- An iterator that has met the end stays there when the array grows. -/
example (eps : K) : ∃ g, IterHeap.Runs eps ⟨⟨[], []⟩, []⟩
      [.stmt (.make .array []), .bool 0, .iter 0, .next 0, .stmt (.append 0 ⟨5, 6⟩), .next 0, .bool 0]
      [.nothing, .bool false, .nothing, .stop, .nothing, .stop, .bool true] g ∧
    seen g.heap = [(.array, [⟨5, 6⟩])] := by
  rw [C99_values]
  refine ⟨[.ended], ?_⟩
  simp [IterWorld.run, IterWorld.step, World.step, World.put, replaces, Cursor.next, Cursor.leave, World.items]

/-- `+=` with a vector leaves an iterator behind with the old items. -/
example (eps : K) : ∃ g, IterHeap.Runs eps ⟨⟨[], []⟩, []⟩
      [.stmt (.make .array [⟨1, 2⟩]), .iter 0, .stmt (.inplaceWith .add 0 (.vec ⟨10, 10⟩)), .next 0]
      [.nothing, .nothing, .nothing, .item ⟨1, 2⟩] g ∧
    seen g.heap = [(.array, [⟨1 + 10, 2 + 10⟩])] := by
  rw [C99_values]
  refine ⟨[.behind [⟨1, 2⟩] 1], ?_⟩
  have h : Operand.inplace .add (.seq .array [(⟨1, 2⟩ : Vec2 K)]) (.vec ⟨10, 10⟩) =
      .ok (.seq .array [⟨1 + 10, 2 + 10⟩], true) := by
    simp [Operand.inplace, Operand.inplaceMeth, Operand.arrIop, Operand.answer, Operand.vecVec]
    rfl
  simp [IterWorld.run, IterWorld.step, World.step, World.put, World.putOp, replaces, replacesAll, h, Cursor.next,
    Cursor.leave, World.items]

end
end IterHeap
end Planar
