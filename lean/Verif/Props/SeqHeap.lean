import Verif.Props.Operators
import Verif.Props.Seq
import Verif.Spec.SeqHeap
/- Property C72: sequence objects do not share state. -/
set_option linter.unusedSectionVars false
namespace Planar
open Operand Spec
namespace SeqHeap

section
variable {K : Type} [Field K] [LinearOrder K] [IsStrictOrderedRing K] [PyMath K]

/-- No two objects refer to the same list, and every list referred to exists. -/
structure Inv (h : SeqHeap K) : Prop where
  bound : ∀ (i : Nat) (c : SeqCls) (r : Nat), h.objs[i]? = some (c, r) → r < h.lists.length
  inj : ∀ (i j : Nat) (c d : SeqCls) (r : Nat), h.objs[i]? = some (c, r) → h.objs[j]? = some (d, r) → i = j

theorem list_append_lt {h : SeqHeap K} {vs : List (Vec2 K)} {o : List (SeqCls × Nat)} {r : Nat} (hr : r < h.lists.length) :
    (⟨h.lists ++ [vs], o⟩ : SeqHeap K).list r = h.list r := by
  simp only [list, List.getElem?_append_left hr]

theorem list_append_eq {h : SeqHeap K} {vs : List (Vec2 K)} {o : List (SeqCls × Nat)} :
    (⟨h.lists ++ [vs], o⟩ : SeqHeap K).list h.lists.length = vs := by
  simp [list]

theorem view_none {h : SeqHeap K} {k : Nat} (hk : h.objs.length ≤ k) : h.view k = none := by
  simp [view, List.getElem?_eq_none hk]

theorem view_some {h : SeqHeap K} {k : Nat} {c : SeqCls} {vs : List (Vec2 K)} (hk : h.view k = some (c, vs)) :
    ∃ r, h.objs[k]? = some (c, r) ∧ h.list r = vs := by
  unfold view at hk
  cases ho : h.objs[k]? with
  | none => rw [ho] at hk; simp at hk
  | some o =>
    obtain ⟨c', r⟩ := o
    rw [ho] at hk
    simp only [Option.map_some, Option.some.injEq, Prod.mk.injEq] at hk
    obtain ⟨rfl, rfl⟩ := hk
    exact ⟨r, rfl, rfl⟩

theorem view_alloc {h : SeqHeap K} (hi : Inv h) (c : SeqCls) (vs : List (Vec2 K)) (k : Nat) :
    (h.alloc c vs).view k = if k = h.objs.length then some (c, vs) else h.view k := by
  unfold view alloc
  by_cases hk : k = h.objs.length
  · subst hk
    simp only [List.getElem?_append_right (le_refl _), Nat.sub_self, List.getElem?_cons_zero, Option.map_some, if_true,
      list_append_eq]
  · rw [if_neg hk]
    by_cases hlt : k < h.objs.length
    · simp only [List.getElem?_append_left hlt]
      cases ho : h.objs[k]? with
      | none => rfl
      | some o => simp only [Option.map_some, list_append_lt (hi.bound k o.1 o.2 ho)]
    · have h1 : h.objs[k]? = none := List.getElem?_eq_none (by omega)
      have h2 : (h.objs ++ [(c, h.lists.length)])[k]? = none := List.getElem?_eq_none (by simp; omega)
      simp only [h1, h2, Option.map_none]

theorem inv_alloc {h : SeqHeap K} (hi : Inv h) (c : SeqCls) (vs : List (Vec2 K)) : Inv (h.alloc c vs) := by
  have key : ∀ (i : Nat) (d : SeqCls) (r : Nat), (h.alloc c vs).objs[i]? = some (d, r) →
      (h.objs[i]? = some (d, r) ∧ r < h.lists.length) ∨ (i = h.objs.length ∧ r = h.lists.length) := by
    intro i d r hh
    simp only [alloc] at hh
    by_cases hlt : i < h.objs.length
    · rw [List.getElem?_append_left hlt] at hh
      exact Or.inl ⟨hh, hi.bound _ _ _ hh⟩
    · rw [List.getElem?_append_right (by omega)] at hh
      rcases hn : i - h.objs.length with _ | n
      · rw [hn] at hh
        simp at hh
        exact Or.inr ⟨by omega, hh.2.symm⟩
      · rw [hn] at hh; simp at hh
  constructor
  · intro i d r hh
    simp only [alloc, List.length_append, List.length_singleton]
    rcases key i d r hh with h1 | h1 <;> omega
  · intro i j d e r h1 h2
    rcases key i d r h1 with h1 | h1 <;> rcases key j e r h2 with h2 | h2
    · exact hi.inj _ _ _ _ _ h1.1 h2.1
    · omega
    · omega
    · omega

theorem objs_write (h : SeqHeap K) (i : Nat) (vs : List (Vec2 K)) : (h.write i vs).objs = h.objs := by
  unfold write; split <;> rfl

theorem length_write (h : SeqHeap K) (i : Nat) (vs : List (Vec2 K)) : (h.write i vs).lists.length = h.lists.length := by
  unfold write; split <;> simp

theorem inv_write {h : SeqHeap K} (hi : Inv h) (i : Nat) (vs : List (Vec2 K)) : Inv (h.write i vs) := by
  constructor
  · intro j c r hh
    rw [length_write]; rw [objs_write] at hh; exact hi.bound _ _ _ hh
  · intro a b c d r h1 h2
    rw [objs_write] at h1 h2; exact hi.inj _ _ _ _ _ h1 h2

theorem view_write {h : SeqHeap K} (hi : Inv h) (i : Nat) (vs : List (Vec2 K)) (k : Nat) :
    (h.write i vs).view k = if k = i then (h.view i).map fun o => (o.1, vs) else h.view k := by
  unfold write
  cases ho : h.objs[i]? with
  | none =>
    by_cases hk : k = i
    · subst hk; simp [view, ho]
    · simp [hk]
  | some o =>
    obtain ⟨c, r⟩ := o
    have hr := hi.bound i c r ho
    by_cases hk : k = i
    · subst hk
      simp only [view, ho, Option.map_some, if_true, list, List.getElem?_set_self hr, Option.getD_some]
    · rw [if_neg hk]
      simp only [view]
      cases hok : h.objs[k]? with
      | none => rfl
      | some p =>
        obtain ⟨d, q⟩ := p
        have hq : q ≠ r := by
          rintro rfl
          exact hk (hi.inj k i d c q hok ho)
        simp only [Option.map_some, list, List.getElem?_set_ne (Ne.symm hq)]

theorem inv_rebind {h : SeqHeap K} (hi : Inv h) (i : Nat) (vs : List (Vec2 K)) : Inv (h.rebind i vs) := by
  unfold rebind
  cases ho : h.objs[i]? with
  | none => exact hi
  | some o =>
    obtain ⟨c, r⟩ := o
    have key : ∀ (j : Nat) (d : SeqCls) (q : Nat), (h.objs.set i (c, h.lists.length))[j]? = some (d, q) →
        (j ≠ i ∧ h.objs[j]? = some (d, q) ∧ q < h.lists.length) ∨ (j = i ∧ q = h.lists.length) := by
      intro j d q hh
      by_cases hj : j = i
      · subst hj
        rw [List.getElem?_set_self (by have := List.getElem?_eq_some_iff.mp ho; exact this.1)] at hh
        simp only [Option.some.injEq, Prod.mk.injEq] at hh
        exact Or.inr ⟨rfl, hh.2.symm⟩
      · rw [List.getElem?_set_ne (Ne.symm hj)] at hh
        exact Or.inl ⟨hj, hh, hi.bound _ _ _ hh⟩
    constructor
    · intro j d q hh
      simp only [List.length_append, List.length_singleton]
      rcases key j d q hh with h1 | h1 <;> omega
    · intro a b d e q h1 h2
      rcases key a d q h1 with h1 | h1 <;> rcases key b e q h2 with h2 | h2
      · exact hi.inj _ _ _ _ _ h1.2.1 h2.2.1
      · omega
      · omega
      · omega

theorem view_rebind {h : SeqHeap K} (hi : Inv h) (i : Nat) (vs : List (Vec2 K)) (k : Nat) :
    (h.rebind i vs).view k = if k = i then (h.view i).map fun o => (o.1, vs) else h.view k := by
  unfold rebind
  cases ho : h.objs[i]? with
  | none =>
    by_cases hk : k = i
    · subst hk; simp [view, ho]
    · simp [hk]
  | some o =>
    obtain ⟨c, r⟩ := o
    have hil : i < h.objs.length := (List.getElem?_eq_some_iff.mp ho).1
    by_cases hk : k = i
    · subst hk
      simp only [view, ho, Option.map_some, if_true, List.getElem?_set_self hil, list_append_eq]
    · rw [if_neg hk]
      simp only [view, List.getElem?_set_ne (Ne.symm hk)]
      cases hok : h.objs[k]? with
      | none => rfl
      | some p => simp only [Option.map_some, list_append_lt (hi.bound k p.1 p.2 hok)]

theorem objs_length_rebind (h : SeqHeap K) (i : Nat) (vs : List (Vec2 K)) :
    (h.rebind i vs).objs.length = h.objs.length := by
  unfold rebind; split <;> simp

/-! ### the loop of `extend` -/

theorem getD_set_self {α : Type} {ls : List (List α)} {d : Nat} {x : List α} (hd : d < ls.length) :
    (ls.set d x)[d]?.getD [] = x := by
  rw [List.getElem?_set_self hd]; rfl

theorem getD_set_ne {α : Type} {ls : List (List α)} {d e : Nat} {x : List α} (h : e ≠ d) :
    (ls.set d x)[e]?.getD [] = ls[e]?.getD [] := by
  rw [List.getElem?_set_ne (Ne.symm h)]

theorem set_getD {α : Type} {ls : List (List α)} {d : Nat} : ls.set d (ls[d]?.getD []) = ls := by
  by_cases hd : d < ls.length
  · rw [List.getElem?_eq_getElem hd, Option.getD_some, List.set_getElem_self]
  · rw [List.set_eq_of_length_le (by omega)]

/-- Extending a list by another one ends, and appends what the other one holds from item `n` on. -/
theorem extendLoop_other {src dst : Nat} (hne : src ≠ dst) (n : Nat) (ls ls' : List (List (Vec2 K)))
    (hd : dst < ls.length) :
    ExtendLoop src dst n ls ls' ↔ ls' = ls.set dst (ls[dst]?.getD [] ++ (ls[src]?.getD []).drop n) := by
  constructor
  · intro h
    induction h with
    | done hn => rw [List.drop_eq_nil_of_le hn, List.append_nil, set_getD]
    | @next n ls ls' v hv _ ih =>
      rw [ih (by simpa using hd), getD_set_self hd, getD_set_ne hne, List.set_set]
      congr 1
      obtain ⟨hn, hv⟩ := List.getElem?_eq_some_iff.mp hv
      rw [List.drop_eq_getElem_cons hn, hv, copy_eq]
      simp
  · rintro rfl
    obtain ⟨m, hm⟩ : ∃ m, (ls[src]?.getD []).length - n = m := ⟨_, rfl⟩
    induction m generalizing n ls with
    | zero =>
      have hle : (ls[src]?.getD []).length ≤ n := by omega
      have := ExtendLoop.done (src := src) (dst := dst) (n := n) (ls := ls) hle
      rw [List.drop_eq_nil_of_le hle, List.append_nil, set_getD]; exact this
    | succ m ih =>
      have hn : n < (ls[src]?.getD []).length := by omega
      refine ExtendLoop.next (v := (ls[src]?.getD [])[n]) (List.getElem?_eq_getElem hn) ?_
      have := ih (n + 1) (ls.set dst (ls[dst]?.getD [] ++ [((ls[src]?.getD [])[n]).copy])) (by simpa using hd)
        (by rw [getD_set_ne hne]; omega)
      rw [getD_set_self hd, getD_set_ne hne, List.set_set] at this
      have e : ls[dst]?.getD [] ++ (ls[src]?.getD []).drop n =
          ls[dst]?.getD [] ++ [((ls[src]?.getD [])[n]).copy] ++ (ls[src]?.getD []).drop (n + 1) := by
        rw [List.drop_eq_getElem_cons hn, copy_eq]; simp
      rw [e]; exact this

/-- Extending a list by itself never ends once there is an item to read: there always will be another one. -/
theorem extendLoop_self {r n : Nat} {ls ls' : List (List (Vec2 K))} (hr : r < ls.length)
    (hn : n < (ls[r]?.getD []).length) : ¬ ExtendLoop r r n ls ls' := by
  intro h
  induction h with
  | done hle => omega
  | @next n ls ls' v hv _ ih =>
    refine ih (by simpa using hr) ?_
    rw [getD_set_self hr, List.length_append, List.length_singleton]; omega

/-! ### statements -/

theorem shape_result (h : SeqHeap K) (x : Py (Value K)) : h.result x = h ∨ ∃ c vs, h.result x = h.alloc c vs := by
  unfold result
  split
  · exact Or.inr ⟨_, _, rfl⟩
  · exact Or.inl rfl

theorem shape_inplace {h h' : SeqHeap K} {op : BinOp} {i : Nat} {l x : Operand K} (hh : h.inplaceOp op i l x = some h') :
    h' = h ∨ (∃ c vs, h' = h.alloc c vs) ∨ ∃ vs, h' = h.write i vs ∨ h' = h.rebind i vs := by
  unfold inplaceOp at hh
  split at hh
  · simp only [Option.some.injEq] at hh; exact Or.inr (Or.inr ⟨_, Or.inl hh.symm⟩)
  · simp only [Option.some.injEq] at hh; exact Or.inr (Or.inr ⟨_, Or.inr hh.symm⟩)
  · cases hh
  · simp only [Option.some.injEq] at hh
    subst hh
    rcases shape_result h _ with h1 | h1
    · exact Or.inl h1
    · exact Or.inr (Or.inl h1)
  · simp only [Option.some.injEq] at hh; exact Or.inl hh.symm

/-- Every statement does nothing, makes one object, or changes the one object it may change. -/
theorem shape_exec {eps : K} {h h' : SeqHeap K} {s : SeqStmt K} (hh : h.exec eps s = some h') :
    h' = h ∨ (∃ c vs, h' = h.alloc c vs) ∨ ∃ i vs, changes s = some i ∧ (h' = h.write i vs ∨ h' = h.rebind i vs) := by
  have res : ∀ x : Py (Value K), some (h.result x) = some h' →
      h' = h ∨ (∃ c vs, h' = h.alloc c vs) ∨ ∃ i vs, changes s = some i ∧ (h' = h.write i vs ∨ h' = h.rebind i vs) := by
    intro x hx
    simp only [Option.some.injEq] at hx
    subst hx
    rcases shape_result h x with h1 | h1
    · exact Or.inl h1
    · exact Or.inr (Or.inl h1)
  cases s <;> simp only [exec] at hh
  case make c vs =>
    split_ifs at hh <;> simp only [Option.some.injEq] at hh
    · exact Or.inl hh.symm
    · exact Or.inr (Or.inl ⟨_, _, hh.symm⟩)
  case convert c j =>
    split at hh
    · split_ifs at hh <;> simp only [Option.some.injEq] at hh
      · exact Or.inl hh.symm
      · exact Or.inr (Or.inl ⟨_, _, hh.symm⟩)
    · simp only [Option.some.injEq] at hh; exact Or.inl hh.symm
  case fromPoints c j =>
    split at hh <;> simp only [Option.some.injEq] at hh
    · exact Or.inr (Or.inl ⟨_, _, hh.symm⟩)
    · exact Or.inl hh.symm
  case copy j =>
    split at hh <;> simp only [Option.some.injEq] at hh
    · exact Or.inr (Or.inl ⟨_, _, hh.symm⟩)
    · exact Or.inl hh.symm
  case slice j a b st =>
    split at hh
    · split at hh <;> simp only [Option.some.injEq] at hh
      · exact Or.inr (Or.inl ⟨_, _, hh.symm⟩)
      · exact Or.inl hh.symm
    · simp only [Option.some.injEq] at hh; exact Or.inl hh.symm
  case setItem i k v =>
    split at hh <;> simp only [Option.some.injEq] at hh
    · exact Or.inr (Or.inr ⟨i, _, rfl, Or.inl hh.symm⟩)
    · exact Or.inl hh.symm
  case setSlice i a b st j =>
    split at hh <;> simp only [Option.some.injEq] at hh
    · exact Or.inr (Or.inr ⟨i, _, rfl, Or.inl hh.symm⟩)
    · exact Or.inl hh.symm
  case append i v =>
    split at hh <;> simp only [Option.some.injEq] at hh
    · exact Or.inr (Or.inr ⟨i, _, rfl, Or.inl hh.symm⟩)
    · exact Or.inl hh.symm
  case insert i k v =>
    split at hh <;> simp only [Option.some.injEq] at hh
    · exact Or.inr (Or.inr ⟨i, _, rfl, Or.inl hh.symm⟩)
    · exact Or.inl hh.symm
  case delItem i k =>
    split at hh <;> simp only [Option.some.injEq] at hh
    · exact Or.inr (Or.inr ⟨i, _, rfl, Or.inl hh.symm⟩)
    · exact Or.inl hh.symm
  case delSlice i a b st =>
    split at hh <;> simp only [Option.some.injEq] at hh
    · exact Or.inr (Or.inr ⟨i, _, rfl, Or.inl hh.symm⟩)
    · exact Or.inl hh.symm
  case extend i j => simp only [Option.some.injEq] at hh; exact Or.inl hh.symm
  case normalize i =>
    split at hh
    · split at hh <;> simp only [Option.some.injEq] at hh
      · exact Or.inr (Or.inr ⟨i, _, rfl, Or.inr hh.symm⟩)
      · exact Or.inl hh.symm
    · simp only [Option.some.injEq] at hh; exact Or.inl hh.symm
  case clamp i lo hi =>
    split at hh
    · split at hh <;> simp only [Option.some.injEq] at hh
      · exact Or.inr (Or.inr ⟨i, _, rfl, Or.inr hh.symm⟩)
      · exact Or.inl hh.symm
    · simp only [Option.some.injEq] at hh; exact Or.inl hh.symm
  case binop op i j =>
    split at hh
    · exact res _ hh
    · simp only [Option.some.injEq] at hh; exact Or.inl hh.symm
  case binopWith op i x =>
    split at hh
    · exact res _ hh
    · simp only [Option.some.injEq] at hh; exact Or.inl hh.symm
  case rbinopWith op x i =>
    split at hh
    · exact res _ hh
    · simp only [Option.some.injEq] at hh; exact Or.inl hh.symm
  case inplace op i j =>
    split at hh
    · rcases shape_inplace hh with h1 | h1 | ⟨vs, h1⟩
      · exact Or.inl h1
      · exact Or.inr (Or.inl h1)
      · exact Or.inr (Or.inr ⟨i, vs, rfl, h1⟩)
    · simp only [Option.some.injEq] at hh; exact Or.inl hh.symm
  case inplaceWith op i x =>
    split at hh
    · rcases shape_inplace hh with h1 | h1 | ⟨vs, h1⟩
      · exact Or.inl h1
      · exact Or.inr (Or.inl h1)
      · exact Or.inr (Or.inr ⟨i, vs, rfl, h1⟩)
    · simp only [Option.some.injEq] at hh; exact Or.inl hh.symm

/-- `extend` by an object with another list appends to the list. -/
theorem extend_write {h : SeqHeap K} (hi : Inv h) {i j r q : Nat} {c : SeqCls} {ls : List (List (Vec2 K))}
    (h1 : h.objs[i]? = some (.array, r)) (h2 : h.objs[j]? = some (c, q)) (hl : ExtendLoop q r 0 h.lists ls) :
    (⟨ls, h.objs⟩ : SeqHeap K) = h.write i (h.list r ++ h.list q) := by
  have hr := hi.bound _ _ _ h1
  by_cases hqr : q = r
  · subst hqr
    by_cases he : (h.lists[q]?.getD []).length = 0
    · have hnil : h.list q = [] := List.length_eq_zero_iff.mp he
      cases hl with
      | done hle =>
        unfold write; rw [h1]
        simp only [hnil, List.append_nil]
        congr 1
        have : h.lists.set q (h.lists[q]?.getD []) = h.lists := set_getD
        rw [show h.lists[q]?.getD [] = [] from hnil] at this
        exact this.symm
      | next hv _ => rw [show h.lists[q]?.getD [] = [] from hnil] at hv; simp at hv
    · exact absurd hl (extendLoop_self hr (by omega))
  · rw [extendLoop_other hqr 0 h.lists ls hr] at hl
    unfold write; rw [h1, hl]
    simp [list]

theorem shape_step {eps : K} {h h' : SeqHeap K} (hi : Inv h) {s : SeqStmt K} (hs : Step eps h s h') :
    h' = h ∨ (∃ c vs, h' = h.alloc c vs) ∨ ∃ i vs, changes s = some i ∧ (h' = h.write i vs ∨ h' = h.rebind i vs) := by
  cases hs with
  | exec _ hh => exact shape_exec hh
  | @extend i j r q c ls h1 h2 hl => exact Or.inr (Or.inr ⟨i, _, rfl, Or.inl (extend_write hi h1 h2 hl)⟩)
  | noExtend _ => exact Or.inl rfl

theorem inv_step {eps : K} {h h' : SeqHeap K} (hi : Inv h) {s : SeqStmt K} (hs : Step eps h s h') : Inv h' := by
  rcases shape_step hi hs with rfl | ⟨c, vs, rfl⟩ | ⟨i, vs, -, rfl | rfl⟩
  · exact hi
  · exact inv_alloc hi c vs
  · exact inv_write hi i vs
  · exact inv_rebind hi i vs

theorem inv_empty : Inv (⟨[], []⟩ : SeqHeap K) := ⟨by simp, by simp⟩

theorem inv_runs {eps : K} {h h' : SeqHeap K} {p : List (SeqStmt K)} (hr : Runs eps h p h') (hi : Inv h) : Inv h' := by
  induction hr with
  | nil => exact hi
  | cons hs _ ih => exact ih (inv_step hi hs)

/-! ### what is seen -/

theorem seen_get (h : SeqHeap K) (k : Nat) : (seen h)[k]? = h.view k := by
  simp only [seen, view, List.getElem?_map]

theorem seen_alloc {h : SeqHeap K} (hi : Inv h) (c : SeqCls) (vs : List (Vec2 K)) :
    seen (h.alloc c vs) = seen h ++ [(c, vs)] := by
  apply List.ext_getElem?
  intro k
  rw [seen_get, view_alloc hi]
  have hl : (seen h).length = h.objs.length := by simp [seen]
  by_cases hk : k = h.objs.length
  · rw [if_pos hk, List.getElem?_append_right (by omega), hl, hk]; simp
  · rw [if_neg hk]
    by_cases hlt : k < h.objs.length
    · rw [List.getElem?_append_left (by omega), seen_get]
    · rw [view_none (by omega), List.getElem?_eq_none (by simp [hl]; omega)]

theorem put_get (w : World K) (i : Nat) (vs : List (Vec2 K)) (k : Nat) :
    (w.put i vs)[k]? = if k = i then w[i]?.map fun o => (o.1, vs) else w[k]? := by
  unfold World.put
  rw [List.getElem?_modify]
  by_cases hk : k = i
  · subst hk; simp
  · have hk' : ¬ i = k := fun e => hk e.symm
    simp [hk, hk']

theorem seen_write {h : SeqHeap K} (hi : Inv h) (i : Nat) (vs : List (Vec2 K)) :
    seen (h.write i vs) = (seen h).put i vs := by
  apply List.ext_getElem?
  intro k
  rw [seen_get, view_write hi, put_get, seen_get, seen_get]

theorem seen_rebind {h : SeqHeap K} (hi : Inv h) (i : Nat) (vs : List (Vec2 K)) :
    seen (h.rebind i vs) = (seen h).put i vs := by
  apply List.ext_getElem?
  intro k
  rw [seen_get, view_rebind hi, put_get, seen_get, seen_get]

theorem seen_result {h : SeqHeap K} (hi : Inv h) (x : Py (Value K)) : seen (h.result x) = (seen h).keep x := by
  rcases x with e | v
  · rfl
  · cases v <;> first | rfl | exact seen_alloc hi _ _

theorem put_same {w : World K} {i : Nat} {c : SeqCls} {vs : List (Vec2 K)} (h : w[i]? = some (c, vs)) :
    w.put i vs = w := by
  apply List.ext_getElem?
  intro k
  rw [put_get]
  by_cases hk : k = i
  · subst hk; simp [h]
  · rw [if_neg hk]

theorem seen_inplaceOp {h : SeqHeap K} (hi : Inv h) (op : BinOp) (i : Nat) (l x : Operand K) :
    (h.inplaceOp op i l x).map seen = (seen h).putOp i (Operand.inplace op l x) := by
  unfold inplaceOp
  rcases he : Operand.inplace op l x with e | ⟨v, b⟩
  · rfl
  · cases b <;> cases v <;> cases x <;>
      simp only [Option.map_some, Option.map_none, World.putOp, seen_write hi, seen_rebind hi, seen_result hi]

theorem new_eq' (vs : List (Vec2 K)) : Vec2Array.new vs = vs := by
  simp only [Vec2Array.new, show (Vec2.copy : Vec2 K → Vec2 K) = id from funext copy_eq, List.map_id]

/-- A statement other than `extend` does to what is seen what it does to independent values. -/
theorem seen_exec (eps : K) {h : SeqHeap K} (hi : Inv h) (s : SeqStmt K) (hs : ∀ i j, s ≠ .extend i j) :
    (h.exec eps s).map seen = (seen h).step eps s := by
  cases s <;> simp only [exec, World.step, seen_get]
  case extend i j => exact absurd rfl (hs i j)
  case make c vs => split_ifs <;> simp only [Option.map_some, seen_alloc hi, new_eq']
  case convert c j =>
    rcases h.view j with _ | ⟨d, ws⟩
    · rfl
    · simp only
      split_ifs <;> simp only [Option.map_some, seen_alloc hi, new_eq']
  case fromPoints c j =>
    rcases h.view j with _ | ⟨d, ws⟩
    · rfl
    · simp only [Option.map_some, seen_alloc hi, Vec2Array.fromPoints]
  case copy j =>
    rcases h.view j with _ | ⟨d, ws⟩
    · rfl
    · simp only [Option.map_some, seen_alloc hi, Vec2Array.copy, Vec2Array.fromPoints]
  case slice j a b st =>
    rcases h.view j with _ | ⟨_ | _ | _, ws⟩ <;> try rfl
    simp only
    cases Vec2Array.getSlice ws a b st <;> simp only [Option.map_some, seen_alloc hi]
  case setItem i k v =>
    rcases h.view i with _ | ⟨d, ws⟩
    · rfl
    · simp only [Option.map_some, seen_write hi]
  case setSlice i a b st j =>
    rcases h.view i with _ | ⟨_ | _ | _, ws⟩ <;> rcases h.view j with _ | ⟨e, us⟩ <;> try rfl
    simp only [Option.map_some, seen_write hi]
  case append i v =>
    rcases h.view i with _ | ⟨_ | _ | _, ws⟩ <;> try rfl
    simp only [Option.map_some, seen_write hi, Vec2Array.append, copy_eq]
  case insert i k v =>
    rcases h.view i with _ | ⟨_ | _ | _, ws⟩ <;> try rfl
    simp only [Option.map_some, seen_write hi]
  case delItem i k =>
    rcases h.view i with _ | ⟨_ | _ | _, ws⟩ <;> try rfl
    simp only [Option.map_some, seen_write hi]
  case delSlice i a b st =>
    rcases h.view i with _ | ⟨_ | _ | _, ws⟩ <;> try rfl
    simp only [Option.map_some, seen_write hi]
  case normalize i =>
    have key : ∀ ws : List (Vec2 K), h.view i = some (.array, ws) →
        Option.map seen (match Vec2Array.normalize eps ws with
          | (.ok _, us) => some (h.rebind i us)
          | (.error _, _) => some h) = some ((seen h).put i (Vec2Array.normalize eps ws).2) := by
      intro ws hv
      unfold Vec2Array.normalize
      cases List.mapM (Vec2.normalized eps) ws with
      | error e => simp only [Option.map_some]; rw [put_same (c := .array) (by rw [seen_get, hv])]
      | ok us => simp only [Option.map_some, seen_rebind hi]
    rcases hv : h.view i with _ | ⟨_ | _ | _, ws⟩ <;> try rfl
    exact key ws hv
  case clamp i lo hi' =>
    have key : ∀ ws : List (Vec2 K), h.view i = some (.array, ws) →
        Option.map seen (match Vec2Array.clamp eps ws lo hi' with
          | (.ok _, us) => some (h.rebind i us)
          | (.error _, _) => some h) = some ((seen h).put i (Vec2Array.clamp eps ws lo hi').2) := by
      intro ws hv
      unfold Vec2Array.clamp
      split_ifs
      · simp only [Option.map_some]; rw [put_same (c := .array) (by rw [seen_get, hv])]
      · cases List.mapM (fun v : Vec2 K => v.clamped eps lo hi') ws with
        | error e => simp only [Option.map_some]; rw [put_same (c := .array) (by rw [seen_get, hv])]
        | ok us => simp only [Option.map_some, seen_rebind hi]
    rcases hv : h.view i with _ | ⟨_ | _ | _, ws⟩ <;> try rfl
    exact key ws hv
  case binop op i j =>
    rcases h.view i with _ | ⟨d, ws⟩ <;> rcases h.view j with _ | ⟨e, us⟩ <;> try rfl
    simp only [Option.map_some, seen_result hi]
  case binopWith op i x =>
    rcases h.view i with _ | ⟨d, ws⟩ <;> try rfl
    simp only [Option.map_some, seen_result hi]
  case rbinopWith op x i =>
    rcases h.view i with _ | ⟨d, ws⟩ <;> try rfl
    simp only [Option.map_some, seen_result hi]
  case inplace op i j =>
    rcases h.view i with _ | ⟨d, ws⟩ <;> rcases h.view j with _ | ⟨e, us⟩ <;> try rfl
    exact seen_inplaceOp hi op i _ _
  case inplaceWith op i x =>
    rcases h.view i with _ | ⟨d, ws⟩ <;> try rfl
    exact seen_inplaceOp hi op i _ _

theorem seen_step {eps : K} {h h' : SeqHeap K} (hi : Inv h) {s : SeqStmt K} (hs : Step eps h s h') :
    (seen h).step eps s = some (seen h') := by
  cases hs with
  | exec hne hh => rw [← seen_exec eps hi s hne, hh]; rfl
  | @extend i j r q c ls h1 h2 hl =>
    have v1 : h.view i = some (.array, h.list r) := by simp [view, h1]
    have v2 : h.view j = some (c, h.list q) := by simp [view, h2]
    rw [extend_write hi h1 h2 hl, seen_write hi]
    simp only [World.step, seen_get, v1, v2]
    rw [if_neg]
    rintro ⟨rfl, hne⟩
    rw [h1] at h2; cases h2
    exact extendLoop_self (hi.bound _ _ _ h1) (List.length_pos_iff.mpr hne) hl
  | @noExtend i j hno =>
    simp only [World.step, seen_get]
    rcases hno with hno | hno
    · rcases h1 : h.view i with _ | ⟨_ | _ | _, ws⟩ <;> try rfl
      obtain ⟨r, hr, -⟩ := view_some h1
      exact absurd hr (hno r)
    · have : h.view j = none := by simp [view, hno]
      rw [this]
      rcases h1 : h.view i with _ | ⟨_ | _ | _, ws⟩ <;> rfl

theorem step_seen {eps : K} {h : SeqHeap K} (hi : Inv h) {s : SeqStmt K} {w : World K}
    (hw : (seen h).step eps s = some w) : ∃ h', Step eps h s h' ∧ seen h' = w := by
  by_cases hs : ∃ i j, s = .extend i j
  · obtain ⟨i, j, rfl⟩ := hs
    by_cases hno : (∀ r, h.objs[i]? ≠ some (.array, r)) ∨ h.objs[j]? = none
    · have := seen_step hi (Step.noExtend (eps := eps) hno)
      rw [hw] at this
      exact ⟨h, Step.noExtend hno, (Option.some.inj this).symm⟩
    · push Not at hno
      obtain ⟨⟨r, hr⟩, hj⟩ := hno
      obtain ⟨⟨c, q⟩, hq⟩ := Option.ne_none_iff_exists'.mp hj
      have hb := hi.bound _ _ _ hr
      have v1 : h.view i = some (.array, h.list r) := by simp [view, hr]
      have v2 : h.view j = some (c, h.list q) := by simp [view, hq]
      have key : ∃ ls, ExtendLoop q r 0 h.lists ls := by
        by_cases hqr : q = r
        · subst hqr
          refine ⟨h.lists, ExtendLoop.done ?_⟩
          have hij : i = j := hi.inj _ _ _ _ _ hr hq
          simp only [World.step, seen_get, v1, v2] at hw
          split_ifs at hw with hc
          push Not at hc
          have := hc hij
          simp only [list] at this
          rw [this]; simp
        · exact ⟨_, (extendLoop_other hqr 0 h.lists _ hb).mpr rfl⟩
      obtain ⟨ls, hl⟩ := key
      have hst := Step.extend (eps := eps) hr hq hl
      have := seen_step hi hst
      rw [hw] at this
      exact ⟨_, hst, (Option.some.inj this).symm⟩
  · push Not at hs
    rw [← seen_exec eps hi s hs] at hw
    obtain ⟨h', h1, h2⟩ := Option.map_eq_some_iff.mp hw
    exact ⟨h', Step.exec hs h1, h2⟩

theorem seen_runs {eps : K} {h h' : SeqHeap K} {p : List (SeqStmt K)} (hr : Runs eps h p h') (hi : Inv h) :
    (seen h).run eps p = some (seen h') := by
  induction hr with
  | nil => rfl
  | cons hs _ ih =>
    have := ih (inv_step hi hs)
    unfold World.run at this ⊢
    rw [List.foldlM_cons, seen_step hi hs]
    exact this

theorem runs_seen {eps : K} {p : List (SeqStmt K)} {h : SeqHeap K} (hi : Inv h) {w : World K}
    (hw : (seen h).run eps p = some w) : ∃ h', Runs eps h p h' ∧ seen h' = w := by
  induction p generalizing h with
  | nil => exact ⟨h, Runs.nil, by simpa [World.run] using hw⟩
  | cons s p ih =>
    unfold World.run at hw
    rw [List.foldlM_cons] at hw
    rcases hst : (seen h).step eps s with _ | w₁
    · rw [hst] at hw; cases hw
    · rw [hst] at hw
      obtain ⟨h₁, hs, rfl⟩ := step_seen hi hst
      obtain ⟨h', hr, e⟩ := ih (inv_step hi hs) hw
      exact ⟨h', Runs.cons hs hr, e⟩

theorem runs_append {eps : K} {h h₁ h' : SeqHeap K} {p q : List (SeqStmt K)} (h1 : Runs eps h p h₁)
    (h2 : Runs eps h₁ q h') : Runs eps h (p ++ q) h' := by
  induction h1 with
  | nil => exact h2
  | cons hs _ ih => exact Runs.cons hs (ih h2)

theorem getSlice_all (vs : List (Vec2 K)) : Vec2Array.getSlice vs none none 1 = .ok vs := by
  rw [(C29_reads vs 0 none none 1).2.2.1 (by decide)]
  congr 1
  have : slicePositions vs.length none none 1 = List.range vs.length := by
    simp only [slicePositions, boundUp, show (1 : Int) > 0 from by decide, if_true]
    simp [List.filter_eq_self]
  rw [this]
  apply List.ext_getElem?
  intro k
  have e : ∀ n, n ≤ vs.length → (List.range n).filterMap (fun k => vs[k]?) = vs.take n := by
    intro n
    induction n with
    | zero => intro _; simp
    | succ n ih =>
      intro hn
      rw [List.range_succ, List.filterMap_append, ih (by omega), List.take_succ]
      simp [List.getElem?_eq_getElem (show n < vs.length by omega)]
  rw [e _ (le_refl _), List.take_length]

/-- **C72** a program that starts without objects ends with the objects `w` to be seen exactly when the machine without a
heap says so, in which every object is an independent value: no statement reaches another object through a shared list,
also when an object is its own argument (`a[:] = a`, `a += a`). Partial: in that machine `a.extend(a)` does not end for
an array `a` with items, and in-place operators may leave an array with things other than vectors (C71). -/
theorem C72_values_partial (eps : K) (prog : List (SeqStmt K)) (w : World K) :
    (∃ h, Runs eps ⟨[], []⟩ prog h ∧ seen h = w) ↔ World.run eps [] prog = some w := by
  constructor
  · rintro ⟨h, hr, rfl⟩
    exact seen_runs hr inv_empty
  · intro hw
    exact runs_seen inv_empty hw

/-- **C72** what a program leaves to be seen is determined by the program. -/
theorem C72_deterministic (eps : K) (prog : List (SeqStmt K)) (h h' : SeqHeap K) (hr : Runs eps ⟨[], []⟩ prog h)
    (hr' : Runs eps ⟨[], []⟩ prog h') : seen h = seen h' := by
  have h1 := seen_runs hr inv_empty
  have h2 := seen_runs hr' inv_empty
  rw [h1] at h2
  exact Option.some.inj h2

/-- **C72** whatever happened before, and however objects were made from one another: as long as no statement is applied
to object `k` itself, it keeps its class and items. -/
theorem C72_independent (eps : K) (before prog : List (SeqStmt K)) (h h' : SeqHeap K) (hb : Runs eps ⟨[], []⟩ before h)
    (hp : Runs eps h prog h') (k : Nat) (hk : (seen h)[k]? ≠ none) (hc : ∀ s ∈ prog, changes s ≠ some k) :
    (seen h')[k]? = (seen h)[k]? := by
  have hi := inv_runs hb inv_empty
  clear hb
  induction hp with
  | nil => rfl
  | @cons h h₁ h' s p hs hr ih =>
    have e : (seen h₁)[k]? = (seen h)[k]? := by
      have hne : k ≠ h.objs.length := by
        rintro rfl; exact hk (by rw [seen_get]; exact view_none (le_refl _))
      rw [seen_get, seen_get]
      rcases shape_step hi hs with rfl | ⟨c, vs, rfl⟩ | ⟨i, vs, hch, rfl | rfl⟩
      · rfl
      · rw [view_alloc hi, if_neg hne]
      · rw [view_write hi, if_neg]
        rintro rfl; exact hc s (by simp) hch
      · rw [view_rebind hi, if_neg]
        rintro rfl; exact hc s (by simp) hch
    rw [ih (by rw [e]; exact hk) (fun t ht => hc t (by simp [ht])) (inv_step hi hs), e]

/-- **C72** objects never disappear or change their class, and a statement makes at most one. -/
theorem C72_class (eps : K) (before : List (SeqStmt K)) (s : SeqStmt K) (h h' : SeqHeap K)
    (hb : Runs eps ⟨[], []⟩ before h) (hs : Step eps h s h') :
    (∀ (k : Nat) (c : SeqCls) (vs : List (Vec2 K)), (seen h)[k]? = some (c, vs) →
      ∃ ws, (seen h')[k]? = some (c, ws)) ∧
    ((seen h').length = (seen h).length ∨ (seen h').length = (seen h).length + 1) := by
  have hi := inv_runs hb inv_empty
  constructor
  · intro k c vs hk
    have hne : k ≠ h.objs.length := by
      rintro rfl; rw [seen_get, view_none (le_refl _)] at hk; cases hk
    rw [seen_get] at hk ⊢
    rcases shape_step hi hs with rfl | ⟨c, vs, rfl⟩ | ⟨i, vs, hch, rfl | rfl⟩
    · exact ⟨vs, hk⟩
    · rw [view_alloc hi, if_neg hne]; exact ⟨_, hk⟩
    · rw [view_write hi]
      split_ifs with e
      · subst e; rw [hk]; exact ⟨_, rfl⟩
      · exact ⟨_, hk⟩
    · rw [view_rebind hi]
      split_ifs with e
      · subst e; rw [hk]; exact ⟨_, rfl⟩
      · exact ⟨_, hk⟩
  · simp only [seen, List.length_map]
    rcases shape_step hi hs with rfl | ⟨c, vs, rfl⟩ | ⟨i, vs, hch, rfl | rfl⟩
    · exact Or.inl rfl
    · right; simp [alloc]
    · left; rw [objs_write]
    · left; rw [objs_length_rebind]

/-- **C72** a copy, a slice, a conversion or `from_points` is an object of its own: it starts with the items of the
original and keeps them whatever is done to the original and to other objects; and the original keeps its items whatever
is done to the new object. -/
theorem C72_copies (eps : K) (before after : List (SeqStmt K)) (j : Nat) (s : SeqStmt K) (h h₁ h' : SeqHeap K)
    (hsj : s = .copy j ∨ s = .slice j none none 1 ∨ ∃ c, s = .fromPoints c j ∨ s = .convert c j)
    (hb : Runs eps ⟨[], []⟩ before h) (hs : Step eps h s h₁) (ha : Runs eps h₁ after h') (c : SeqCls) (vs : List (Vec2 K))
    (hj : (seen h)[j]? = some (c, vs)) (hnew : (seen h₁).length = (seen h).length + 1) :
    (∃ d, (seen h₁)[(seen h).length]? = some (d, vs)) ∧
    ((∀ t ∈ after, changes t ≠ some (seen h).length) → ∃ d, (seen h')[(seen h).length]? = some (d, vs)) ∧
    ((∀ t ∈ after, changes t ≠ some j) → (seen h')[j]? = some (c, vs)) := by
  have hi := inv_runs hb inv_empty
  have hw := seen_step hi hs
  have h1 : ∃ d, seen h₁ = seen h ++ [(d, vs)] := by
    have nope : ∀ {P : Prop}, some (seen h) = some (seen h₁) → P := by
      intro P e
      rw [← Option.some.inj e] at hnew; omega
    rcases hsj with rfl | rfl | ⟨d, rfl | rfl⟩ <;> simp only [World.step, hj] at hw
    · exact ⟨c, (Option.some.inj hw).symm⟩
    · cases c <;> first | exact nope hw | skip
      have hsl : Vec2Array.getSlice vs none none 1 = .ok vs := getSlice_all vs
      simp only [hsl] at hw
      exact ⟨_, (Option.some.inj hw).symm⟩
    · exact ⟨d, (Option.some.inj hw).symm⟩
    · split_ifs at hw
      · exact nope hw
      · exact ⟨d, (Option.some.inj hw).symm⟩
  obtain ⟨d, h1⟩ := h1
  have h2 : (seen h₁)[(seen h).length]? = some (d, vs) := by rw [h1]; simp
  have h3 : (seen h₁)[j]? = some (c, vs) := by
    rw [h1, List.getElem?_append_left (List.getElem?_eq_some_iff.mp hj).1, hj]
  have hb₁ : Runs eps ⟨[], []⟩ (before ++ [s]) h₁ := runs_append hb (Runs.cons hs Runs.nil)
  refine ⟨⟨d, h2⟩, fun hc => ⟨d, ?_⟩, fun hc => ?_⟩
  · rw [C72_independent eps _ after h₁ h' hb₁ ha _ (by rw [h2]; simp) hc, h2]
  · rw [C72_independent eps _ after h₁ h' hb₁ ha _ (by rw [h3]; simp) hc, h3]

/-- **C72** `a.extend(b)` for two different objects ends and appends the items of `b`, and an empty array can also be
extended by itself. -/
theorem C72_extend (eps : K) (before : List (SeqStmt K)) (h : SeqHeap K) (hb : Runs eps ⟨[], []⟩ before h) (i j : Nat)
    (vs ws : List (Vec2 K)) (c : SeqCls) (h1 : (seen h)[i]? = some (.array, vs)) (h2 : (seen h)[j]? = some (c, ws))
    (hij : i ≠ j ∨ vs = []) :
    (∃ h', Step eps h (.extend i j) h') ∧ ∀ h', Step eps h (.extend i j) h' →
      (seen h')[i]? = some (.array, vs ++ ws) ∧ ∀ k, k ≠ i → (seen h')[k]? = (seen h)[k]? := by
  have hi := inv_runs hb inv_empty
  have hstep : (seen h).step eps (.extend i j) = some ((seen h).put i (vs ++ ws)) := by
    simp only [World.step, h1, h2]
    rw [if_neg]; rintro ⟨e, hne⟩
    rcases hij with hij | hij
    · exact hij e
    · exact hne hij
  constructor
  · obtain ⟨h', hs, -⟩ := step_seen hi hstep
    exact ⟨h', hs⟩
  · intro h' hs
    have := seen_step hi hs
    rw [hstep] at this
    rw [← Option.some.inj this]
    refine ⟨by rw [put_get, if_pos rfl, h1]; rfl, fun k hk => by rw [put_get, if_neg hk]⟩

/-- **C72** (violation) for an array with items `a.extend(a)` never ends: the generator reads the list it appends to. -/
theorem C72_extend_self_violated (eps : K) (before : List (SeqStmt K)) (h : SeqHeap K) (hb : Runs eps ⟨[], []⟩ before h)
    (i : Nat) (vs : List (Vec2 K)) (h1 : (seen h)[i]? = some (.array, vs)) (hne : vs ≠ []) :
    ¬ ∃ h', Step eps h (.extend i i) h' := by
  rintro ⟨h', hs⟩
  have := seen_step (inv_runs hb inv_empty) hs
  simp [World.step, h1, hne] at this

/-- **C72** every other statement ends, except that in-place operators may leave an array holding things other than
vectors, which the model does not follow. -/
theorem C72_ends (eps : K) (before : List (SeqStmt K)) (h : SeqHeap K) (hb : Runs eps ⟨[], []⟩ before h)
    (s : SeqStmt K) (hs : ∀ i, s ≠ .extend i i) (hp : ∀ op i j, s ≠ .inplace op i j)
    (hp' : ∀ op i x, s ≠ .inplaceWith op i x) : ∃ h', Step eps h s h' := by
  have hi := inv_runs hb inv_empty
  have key : ∃ w, (seen h).step eps s = some w := by
    cases s <;> simp only [World.step]
    case extend i j =>
      have hij : i ≠ j := by rintro rfl; exact hs i rfl
      split
      · exact ⟨_, if_neg (fun e => hij e.1)⟩
      · exact ⟨_, rfl⟩
    case inplace op i j => exact absurd rfl (hp op i j)
    case inplaceWith op i x => exact absurd rfl (hp' op i x)
    all_goals first | exact ⟨_, rfl⟩ | (split <;> first | exact ⟨_, rfl⟩ | (split <;> exact ⟨_, rfl⟩))
  obtain ⟨w, hw⟩ := key
  obtain ⟨h', hst, -⟩ := step_seen hi hw
  exact ⟨h', hst⟩

/-- A program with a copy, self-assignment of a slice and a write: nothing is shared. -/
example (eps : K) : ∃ h, Runs eps ⟨[], []⟩ [.make .array [⟨1, 2⟩, ⟨3, 4⟩], .copy 0, .convert .seq2 0,
      .append 1 ⟨5, 6⟩, .extend 0 1, .setItem 2 0 ⟨7, 8⟩] h ∧
    seen h = [(.array, [⟨1, 2⟩, ⟨3, 4⟩, ⟨1, 2⟩, ⟨3, 4⟩, ⟨5, 6⟩]), (.array, [⟨1, 2⟩, ⟨3, 4⟩, ⟨5, 6⟩]),
      (.seq2, [⟨7, 8⟩, ⟨3, 4⟩])] := by
  rw [C72_values_partial]
  simp [World.run, World.step, World.put, Vec2Array.setItem, pySet, pyIndex, Vec2.copy]

end
end SeqHeap
end Planar
