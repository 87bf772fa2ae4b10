import Verif.Props.SeqMore
import Verif.Spec.Operators
/- Property C71: the operators of vectors, arrays, sequences, polygons and transforms. -/
set_option linter.unusedSectionVars false
namespace Planar
open Spec Operand

section
variable {K : Type} [Field K] [LinearOrder K] [IsStrictOrderedRing K] [PyMath K]

theorem binop_unfold {op : BinOp} {l r : Operand K} (ho : Ours l r) : binop op l r = (do
    match ← leftMeth op l r with
    | some v => return v
    | none =>
      match ← (if sameClass l r then notImpl else rightMeth op l r) with
      | some v => return v
      | none => match op, l, asTuple r with
        | .add, .tup ks, some ls => return .tup (ks ++ ls)
        | _, _, _ => .error .typeError) := by
    cases l <;> cases r <;> first | rfl | exact ho.elim

theorem binop_left_err {op : BinOp} {l r : Operand K} {e : PyErr} (ho : Ours l r)
    (hl : leftMeth op l r = .error e) : binop op l r = .error e := by
  rw [binop_unfold ho, hl]; rfl

theorem binop_right_err {op : BinOp} {l r : Operand K} {e : PyErr} (ho : Ours l r)
    (hl : leftMeth op l r = notImpl) (hs : sameClass l r = false) (hr : rightMeth op l r = .error e) :
    binop op l r = .error e := by
  rw [binop_unfold ho, hl, hs, if_neg (by simp), hr]; rfl

theorem binop_left {op : BinOp} {l r : Operand K} {α : Type} {f : α → Value K} {x : Py α} (ho : Ours l r)
    (hl : leftMeth op l r = answer f x) : binop op l r = x.map f := by
  rw [binop_unfold ho, hl]
  cases x <;> rfl

theorem binop_right {op : BinOp} {l r : Operand K} {α : Type} {f : α → Value K} {x : Py α} (ho : Ours l r)
    (hl : leftMeth op l r = notImpl) (hs : sameClass l r = false) (hr : rightMeth op l r = answer f x) :
    binop op l r = x.map f := by
  rw [binop_unfold ho, hl, hs, if_neg (by simp), hr]
  cases x <;> rfl

theorem binop_none {op : BinOp} {l r : Operand K} (ho : Ours l r)
    (hl : leftMeth op l r = notImpl) (hs : sameClass l r = true ∨ rightMeth op l r = notImpl)
    (ht : op ≠ .add ∨ ∀ ks, l ≠ .tup ks) :
    binop op l r = .error .typeError := by
  rw [binop_unfold ho, hl]
  have h2 : (if sameClass l r = true then notImpl else rightMeth op l r) = notImpl := by
    rcases hs with h | h
    · rw [if_pos h]
    · rw [h]; simp
  rw [h2]
  cases op <;> first | rfl | (cases l <;> first | rfl | (rcases ht with h | h <;> [exact absurd rfl h; exact absurd rfl (h _)]))

theorem map_ok {α β : Type} {f : α → β} {x : Py α} {b : β} : x.map f = .ok b ↔ ∃ a, x = .ok a ∧ f a = b := by
  cases x <;> simp [Except.map]

theorem answer_ne {α : Type} {f : α → Value K} {x : Py α} : answer f x ≠ notImpl := by
  cases x <;> simp [answer, notImpl, Except.map]

/-! ### errors of the coordinate operations -/

theorem pydiv_err {a b : K} {e : PyErr} (h : pydiv a b = .error e) : e = .zeroDivisionError ∧ b = 0 := by
  unfold pydiv at h
  split_ifs at h with hb
  · simp only [Except.error.injEq] at h
    exact ⟨h.symm, by simpa using hb⟩

theorem pyfdiv_err {a b : K} {e : PyErr} (h : pyfdiv a b = .error e) : e = .zeroDivisionError ∧ b = 0 := by
  unfold pyfdiv at h
  split_ifs at h with hb
  · simp only [Except.error.injEq] at h
    exact ⟨h.symm, by simpa using hb⟩

/-- A pair of computations raises what one of them raises. -/
theorem pair2_err {α β γ : Type} {x : Py α} {y : Py β} {f : α → β → γ} {e : PyErr}
    (h : (do let a ← x; let b ← y; return f a b) = .error e) : x = .error e ∨ y = .error e := by
  cases x with
  | error d => exact Or.inl (by cases h; rfl)
  | ok a =>
    cases y with
    | error d => exact Or.inr (by cases h; rfl)
    | ok b => cases h

theorem vecVec_err {op : BinOp} {a b : Vec2 K} {e : PyErr} (h : vecVec op a b = .error e) :
    e = .zeroDivisionError ∧ (op = .truediv ∨ op = .floordiv) ∧ (b.x = 0 ∨ b.y = 0) := by
  cases op with
  | add => cases h
  | sub => cases h
  | mul => cases h
  | truediv =>
    rcases pair2_err (show (do let x ← pydiv a.x b.x; let y ← pydiv a.y b.y; return (⟨x, y⟩ : Vec2 K)) = .error e from h)
      with h | h
    · exact ⟨(pydiv_err h).1, Or.inl rfl, Or.inl (pydiv_err h).2⟩
    · exact ⟨(pydiv_err h).1, Or.inl rfl, Or.inr (pydiv_err h).2⟩
  | floordiv =>
    rcases pair2_err (show (do let x ← pyfdiv a.x b.x; let y ← pyfdiv a.y b.y; return (⟨x, y⟩ : Vec2 K)) = .error e from h)
      with h | h
    · exact ⟨(pyfdiv_err h).1, Or.inr rfl, Or.inl (pyfdiv_err h).2⟩
    · exact ⟨(pyfdiv_err h).1, Or.inr rfl, Or.inr (pyfdiv_err h).2⟩

theorem vecNum_err {op : BinOp} {a : Vec2 K} {k : K} {e : PyErr} (hop : op ≠ .add ∧ op ≠ .sub)
    (h : vecNum op a k = .error e) :
    e = .zeroDivisionError ∧ (op = .truediv ∨ op = .floordiv) ∧ k = 0 := by
  cases op with
  | add => exact absurd rfl hop.1
  | sub => exact absurd rfl hop.2
  | mul => cases h
  | truediv =>
    rcases pair2_err (show (do let x ← pydiv a.x k; let y ← pydiv a.y k; return (⟨x, y⟩ : Vec2 K)) = .error e from h)
      with h | h <;> exact ⟨(pydiv_err h).1, Or.inl rfl, (pydiv_err h).2⟩
  | floordiv =>
    rcases pair2_err (show (do let x ← pyfdiv a.x k; let y ← pyfdiv a.y k; return (⟨x, y⟩ : Vec2 K)) = .error e from h)
      with h | h <;> exact ⟨(pyfdiv_err h).1, Or.inr rfl, (pyfdiv_err h).2⟩

theorem numVec_err {op : BinOp} {a : Vec2 K} {k : K} {e : PyErr} (hop : op ≠ .add ∧ op ≠ .sub)
    (h : numVec op k a = .error e) :
    e = .zeroDivisionError ∧ (op = .truediv ∨ op = .floordiv) ∧ (a.x = 0 ∨ a.y = 0) := by
  cases op with
  | add => exact absurd rfl hop.1
  | sub => exact absurd rfl hop.2
  | mul => cases h
  | truediv =>
    rcases pair2_err (show (do let x ← pydiv k a.x; let y ← pydiv k a.y; return (⟨x, y⟩ : Vec2 K)) = .error e from h)
      with h | h
    · exact ⟨(pydiv_err h).1, Or.inl rfl, Or.inl (pydiv_err h).2⟩
    · exact ⟨(pydiv_err h).1, Or.inl rfl, Or.inr (pydiv_err h).2⟩
  | floordiv =>
    rcases pair2_err (show (do let x ← pyfdiv k a.x; let y ← pyfdiv k a.y; return (⟨x, y⟩ : Vec2 K)) = .error e from h)
      with h | h
    · exact ⟨(pyfdiv_err h).1, Or.inr rfl, Or.inl (pyfdiv_err h).2⟩
    · exact ⟨(pyfdiv_err h).1, Or.inr rfl, Or.inr (pyfdiv_err h).2⟩

/-- What a comprehension computes. -/
theorem mapM_ok {α β : Type} (f : α → Py β) (l : List α) (out : List β) :
    l.mapM f = .ok out ↔ out.length = l.length ∧ ∀ i (h : i < l.length) (h' : i < out.length), f l[i] = .ok out[i] := by
  induction l generalizing out with
  | nil =>
    constructor
    · intro h
      have : out = [] := by cases h; rfl
      subst this; simp
    · rintro ⟨h, -⟩
      have : out = [] := List.length_eq_zero_iff.mp (by simpa using h)
      subst this; rfl
  | cons a l ih =>
    rw [List.mapM_cons]
    constructor
    · intro h
      cases hf : f a with
      | error e => rw [hf] at h; cases h
      | ok b =>
        cases hl : l.mapM f with
        | error e => rw [hf, hl] at h; cases h
        | ok bs =>
          rw [hf, hl] at h
          have : out = b :: bs := by cases h; rfl
          subst this
          obtain ⟨h1, h2⟩ := (ih bs).mp hl
          refine ⟨by simp [h1], fun i hi hi' => ?_⟩
          cases i with
          | zero => simpa using hf
          | succ i => simpa using h2 i (by simpa using hi) (by simpa using hi')
    · rintro ⟨h1, h2⟩
      cases out with
      | nil => simp at h1
      | cons b bs =>
        have hf := h2 0 (by simp) (by simp)
        simp only [List.getElem_cons_zero] at hf
        have hl := (ih bs).mpr ⟨by simpa using h1, fun i hi hi' =>
          h2 (i + 1) (Nat.succ_lt_succ hi) (Nat.succ_lt_succ hi')⟩
        rw [hf, hl]; rfl

/-- What a comprehension raises, one of its items raises. -/
theorem mapM_err {α β : Type} {f : α → Py β} {l : List α} {e : PyErr} (h : l.mapM f = .error e) :
    ∃ a ∈ l, f a = .error e := by
  induction l with
  | nil => cases h
  | cons a l ih =>
    rw [List.mapM_cons] at h
    cases hf : f a with
    | error d => rw [hf] at h; cases h; exact ⟨a, by simp, hf⟩
    | ok b =>
      cases hl : l.mapM f with
      | error d =>
        rw [hf, hl] at h
        have : d = e := by cases h; rfl
        subst this
        obtain ⟨c, hc, h'⟩ := ih hl
        exact ⟨c, by simp [hc], h'⟩
      | ok bs => rw [hf, hl] at h; cases h

theorem gives_map {op : BinOp} {r : Operand K} {c : Cls} {α : Type} {f : α → Value K} {x : Py α}
    (hc : ∀ a, clsOf (f a) = some c)
    (he : ∀ e, x = .error e → e = .zeroDivisionError ∧ (op = .truediv ∨ op = .floordiv) ∧ HasZero r) :
    Gives op r c (x.map f) := by
  cases x with
  | ok a => exact Or.inl ⟨f a, rfl, hc a⟩
  | error e =>
    obtain ⟨h1, h2⟩ := he e rfl
    subst h1
    exact Or.inr ⟨rfl, h2⟩

theorem whenC_some {p : Prop} [Decidable p] {c d : Cls} (h : whenC p c = some d) : p ∧ c = d := by
  unfold whenC at h; split_ifs at h with hp; exact ⟨hp, by simpa using h⟩

theorem whenC_none {p : Prop} [Decidable p] {c : Cls} (h : whenC p c = none) : ¬ p := by
  unfold whenC at h; split_ifs at h with hp; exact hp

theorem copy_eq (v : Vec2 K) : v.copy = v := by
  cases v; simp [Vec2.copy, Vec2.mk']

theorem mk'_eq (x y : K) : Vec2.mk' x y = ⟨x, y⟩ := by simp [Vec2.mk']

/-! ### every supported combination, as a computation -/

theorem binop_vec_vec (op : BinOp) (a b : Vec2 K) : binop op (.vec a) (.vec b) = (vecVec op a b).map .vec :=
  binop_left trivial rfl

theorem binop_vec_num (op : BinOp) (a : Vec2 K) (k : K) (h : op ≠ .add ∧ op ≠ .sub) :
    binop op (.vec a) (.num k) = (vecNum op a k).map .vec :=
  binop_left trivial (by simp only [leftMeth, vecOp, h.1, h.2, or_self, if_false])

theorem binop_num_vec (op : BinOp) (a : Vec2 K) (k : K) (h : op ≠ .add ∧ op ≠ .sub) :
    binop op (.num k) (.vec a) = (numVec op k a).map .vec :=
  binop_right trivial rfl rfl (by simp only [rightMeth, vecROp, h.1, h.2, or_self, if_false])

theorem binop_vec_tup (op : BinOp) (a : Vec2 K) (x y : K) :
    binop op (.vec a) (.tup [x, y]) = (vecVec op a ⟨x, y⟩).map .vec :=
  binop_left trivial rfl

theorem vmul_comm' (a b : Vec2 K) : a.vmul b = b.vmul a := by
  ext <;> simp [Vec2.vmul, mul_comm]

theorem vadd_comm' (a b : Vec2 K) : a + b = b + a := by
  ext <;> simp [add_comm]

theorem vecVec_comm {op : BinOp} (h : op = .add ∨ op = .mul) (a b : Vec2 K) : vecVec op a b = vecVec op b a := by
  rcases h with rfl | rfl
  · simp only [vecVec, vadd_comm' a b]
  · simp only [vecVec, vmul_comm' a b]

theorem binop_tup_vec (op : BinOp) (a : Vec2 K) (x y : K) (h : op ≠ .add ∧ op ≠ .sub) :
    binop op (.tup [x, y]) (.vec a) = (vecVec op ⟨x, y⟩ a).map .vec := by
  refine binop_right trivial rfl rfl ?_
  simp only [rightMeth, vecROp, h.1, h.2, or_self, if_false]
  by_cases hm : op = .mul
  · subst hm; simp only [if_true]; rw [vecVec_comm (Or.inr rfl)]
  · simp only [hm, if_false]

theorem binop_arr_vec (op : BinOp) (s : List (Vec2 K)) (v : Vec2 K) :
    binop op (.seq .array s) (.vec v) = (s.mapM fun a => vecVec op a v).map (.seq .array) :=
  binop_left trivial (by simp only [leftMeth, arrOp, copy_eq])

theorem vecOp_seq_ne_two {op : BinOp} {v : Vec2 K} {c : SeqCls} {s : List (Vec2 K)} (h : s.length ≠ 2) :
    vecOp op v (.seq c s) = notImpl := by
  match s, h with
  | [], _ => rfl
  | [a], _ => rfl
  | [a, b], h => exact absurd rfl h
  | a :: b :: c :: l, _ => rfl

theorem vecROp_seq_ne_two {op : BinOp} {v : Vec2 K} {c : SeqCls} {s : List (Vec2 K)} (h : s.length ≠ 2) :
    vecROp op v (.seq c s) = notImpl := by
  match s, h with
  | [], _ => rfl
  | [a], _ => rfl
  | [a, b], h => exact absurd rfl h
  | a :: b :: c :: l, _ => rfl

theorem binop_vec_arr (op : BinOp) (s : List (Vec2 K)) (v : Vec2 K) (h : op = .add ∨ op = .mul) (hs : s.length ≠ 2) :
    binop op (.vec v) (.seq .array s) = (s.mapM fun a => vecVec op v a).map (.seq .array) := by
  refine binop_right trivial (vecOp_seq_ne_two hs) rfl ?_
  have : (s.mapM fun a => vecVec op v a) = s.mapM fun a => vecVec op a v := by
    congr 1; funext a; exact vecVec_comm h v a
  rw [this]
  simp only [rightMeth, arrROp, h, if_true, arrOp, copy_eq]

theorem binop_arr_num (op : BinOp) (s : List (Vec2 K)) (k : K) (h : op ≠ .add ∧ op ≠ .sub) :
    binop op (.seq .array s) (.num k) = (s.mapM fun a => vecNum op a k).map (.seq .array) :=
  binop_left trivial (by simp only [leftMeth, arrOp, h.1, h.2, or_self, if_false])

theorem binop_num_arr (s : List (Vec2 K)) (k : K) :
    binop .mul (.num k) (.seq .array s) = (s.mapM fun a => numVec .mul k a).map (.seq .array) := by
  refine binop_right trivial rfl rfl ?_
  simp only [rightMeth, arrROp, or_true, if_true, arrOp, reduceCtorEq, or_self, if_false]
  rfl

theorem binop_arr_tup (op : BinOp) (s : List (Vec2 K)) (x y : K) :
    binop op (.seq .array s) (.tup [x, y]) = (s.mapM fun a => vecVec op a ⟨x, y⟩).map (.seq .array) :=
  binop_left trivial (by simp only [leftMeth, arrOp, mk'_eq])

theorem binop_tup_arr (op : BinOp) (s : List (Vec2 K)) (x y : K) (h : op = .add ∨ op = .mul) :
    binop op (.tup [x, y]) (.seq .array s) = (s.mapM fun a => vecVec op ⟨x, y⟩ a).map (.seq .array) := by
  refine binop_right trivial rfl rfl ?_
  have : (s.mapM fun a => vecVec op ⟨x, y⟩ a) = s.mapM fun a => vecVec op a ⟨x, y⟩ := by
    congr 1; funext a; exact vecVec_comm h _ a
  rw [this]
  simp only [rightMeth, arrROp, h, if_true, arrOp, mk'_eq]

theorem binop_arr_seq (op : BinOp) (d : SeqCls) (s o : List (Vec2 K)) (h : d = .array ∨ op = .add ∨ op = .mul) :
    binop op (.seq .array s) (.seq d o) =
      if s.length = o.length then ((s.zip o).mapM fun ab => vecVec op ab.1 ab.2).map (.seq d) else .error .valueError := by
  by_cases hl : s.length = o.length
  · rw [if_pos hl]
    refine binop_left trivial ?_
    simp only [leftMeth, arrOp, h, if_true, zipSeq, hl]
  · rw [if_neg hl]
    have : leftMeth op (.seq .array s) (.seq d o) = .error .valueError := by
      simp only [leftMeth, arrOp, h, if_true, zipSeq, hl, if_false]
    exact binop_left_err trivial this

theorem mapM_zip_swap {β : Type} (f : Vec2 K → Vec2 K → Py β) (s o : List (Vec2 K)) :
    ((s.zip o).mapM fun ab => f ab.2 ab.1) = (o.zip s).mapM fun ab => f ab.1 ab.2 := by
  induction s generalizing o with
  | nil => cases o <;> rfl
  | cons a s ih =>
    cases o with
    | nil => rfl
    | cons b o =>
      simp only [List.zip_cons_cons, List.mapM_cons, ih]

theorem binop_seq_arr (op : BinOp) (c : SeqCls) (s o : List (Vec2 K)) :
    binop op (.seq c s) (.seq .array o) =
      if s.length = o.length then ((s.zip o).mapM fun ab => vecVec op ab.1 ab.2).map (.seq c) else .error .valueError := by
  by_cases hc : c = .array
  · subst hc; exact binop_arr_seq op .array s o (Or.inl rfl)
  have hL : leftMeth op (.seq c s) (.seq .array o) = notImpl := by cases c <;> first | rfl | exact absurd rfl hc
  have hS : sameClass (K := K) (.seq c s) (.seq .array o) = false := by cases c <;> first | rfl | exact absurd rfl hc
  have hR : rightMeth op (.seq c s) (.seq .array o) =
      if s.length = o.length then answer (.seq c) ((s.zip o).mapM fun ab => vecVec op ab.1 ab.2) else .error .valueError := by
    have hsw : (s.length = o.length) = (o.length = s.length) := propext eq_comm
    simp only [hsw]
    by_cases hop : op = .add ∨ op = .mul
    · simp only [rightMeth, arrROp, hop, if_true, arrOp, or_true, zipSeq]
      congr 2
      rw [← mapM_zip_swap (fun a b => vecVec op a b) o s]
      congr 1; funext ab; exact vecVec_comm hop _ _
    · simp only [rightMeth, arrROp, hop, if_false]
      congr 2
      exact mapM_zip_swap (fun a b => vecVec op a b) o s
  by_cases hl : s.length = o.length
  · rw [if_pos hl] at hR ⊢
    exact binop_right trivial hL hS hR
  · rw [if_neg hl] at hR ⊢
    exact binop_right_err trivial hL hS hR

theorem binop_affine (T : Affine K) (x : Operand K) (f : Value K) (h : affMul T x = .ok (some f)) :
    binop .mul (.affine T) x = .ok f :=
  have ho : Ours (.affine T) x := by cases x <;> trivial
  binop_left (f := fun _ : Unit => f) (x := .ok ()) ho (by simp only [leftMeth, h]; rfl)

theorem binop_affine_right (T : Affine K) (x : Operand K) (f : Value K) (h : affMul T x = .ok (some f))
    (hx : ∀ S, x ≠ .affine S) : binop .mul x (.affine T) = .ok f := by
  have ho : Ours x (.affine T) := by cases x <;> trivial
  refine binop_right (f := fun _ : Unit => f) (x := .ok ()) ho ?_ ?_ (by simp only [rightMeth, if_true, h]; rfl)
  · cases x with
    | seq c s => cases c <;> rfl
    | affine S => exact absurd rfl (hx S)
    | num _ => rfl
    | tup _ => rfl
    | vec _ => rfl
  · cases x with
    | affine S => exact absurd rfl (hx S)
    | seq c s => rfl
    | num _ => rfl
    | tup _ => rfl
    | vec _ => rfl

theorem mapM_vecVec_gives {op : BinOp} {r : Operand K} {α : Type} (c : SeqCls) (f g : α → Vec2 K) (l : List α)
    (h : ∀ a ∈ l, ((g a).x = 0 ∨ (g a).y = 0) → HasZero r) :
    Gives op r (.seq c) ((l.mapM fun a => vecVec op (f a) (g a)).map (.seq c)) := by
  refine gives_map (fun _ => rfl) fun e he => ?_
  obtain ⟨a, ha, hh⟩ := mapM_err he
  obtain ⟨h1, h2, h3⟩ := vecVec_err hh
  exact ⟨h1, h2, h a ha h3⟩

/-- What must be shown about a pair of operands. -/
def Table (op : BinOp) (l r : Operand K) : Prop :=
  (LengthsDiffer l r → expected op l r ≠ none → binop op l r = .error .valueError) ∧
  (¬ LengthsDiffer l r → ∀ c, expected op l r = some c → Gives op r c (binop op l r)) ∧
  (expected op l r = none → binop op l r = .error .typeError)

theorem table_of {op : BinOp} {l r : Operand K} (hd : ¬ LengthsDiffer l r)
    (h1 : ∀ c, expected op l r = some c → Gives op r c (binop op l r))
    (h2 : expected op l r = none → binop op l r = .error .typeError) : Table op l r :=
  ⟨fun h => absurd h hd, fun _ => h1, h2⟩

theorem vecOp_tup_ne_two {op : BinOp} {v : Vec2 K} {ks : List K} (h : ks.length ≠ 2) : vecOp op v (.tup ks) = notImpl := by
  match ks, h with
  | [], _ => rfl
  | [a], _ => rfl
  | [a, b], h => exact absurd rfl h
  | a :: b :: c :: l, _ => rfl

theorem vecROp_tup_ne_two {op : BinOp} {v : Vec2 K} {ks : List K} (h : ks.length ≠ 2) :
    vecROp op v (.tup ks) = notImpl := by
  match ks, h with
  | [], _ => rfl
  | [a], _ => rfl
  | [a, b], h => exact absurd rfl h
  | a :: b :: c :: l, _ => rfl

theorem arrOp_tup_ne_two {op : BinOp} {s : List (Vec2 K)} {ks : List K} (h : ks.length ≠ 2) :
    arrOp op s (.tup ks) = notImpl := by
  match ks, h with
  | [], _ => rfl
  | [a], _ => rfl
  | [a, b], h => exact absurd rfl h
  | a :: b :: c :: l, _ => rfl

theorem affMul_tup_ne_two {T : Affine K} {ks : List K} (h : ks.length ≠ 2) : affMul T (.tup ks) = notImpl := by
  match ks, h with
  | [], _ => rfl
  | [a], _ => rfl
  | [a, b], h => exact absurd rfl h
  | a :: b :: c :: l, _ => rfl

theorem two_of_length {α : Type} {ks : List α} (h : ks.length = 2) : ∃ x y, ks = [x, y] := by
  match ks, h with
  | [a, b], _ => exact ⟨a, b, rfl⟩

theorem not_addsub {op : BinOp} (h : ¬ (op ≠ .add ∧ op ≠ .sub)) : op = .add ∨ op = .sub := by
  by_contra hh; push Not at hh; exact h hh

theorem table_vec (op : BinOp) (v : Vec2 K) (r : Operand K) (ha : ¬ Accident op (.vec v) r) : Table op (.vec v) r := by
  cases r with
  | num k =>
    refine table_of (fun h => h) (fun c h => ?_) (fun h => ?_)
    · obtain ⟨hop, rfl⟩ := whenC_some h
      rw [binop_vec_num op v k hop]
      exact gives_map (fun _ => rfl) fun e he => vecNum_err hop he
    · have hop := not_addsub (whenC_none h)
      refine binop_none trivial ?_ (Or.inr rfl) (Or.inr fun ks => by simp)
      simp only [leftMeth, vecOp, hop, if_true]
  | tup ks =>
    refine table_of (fun h => h) (fun c h => ?_) (fun h => ?_)
    · obtain ⟨h2, rfl⟩ := whenC_some h
      obtain ⟨x, y, rfl⟩ := two_of_length h2
      rw [binop_vec_tup]
      refine gives_map (fun _ => rfl) fun e he => ?_
      obtain ⟨h1, h2, h3⟩ := vecVec_err he
      refine ⟨h1, h2, ?_⟩
      simp only [HasZero, List.mem_cons]
      rcases h3 with h | h
      · exact Or.inl h.symm
      · exact Or.inr (Or.inl h.symm)
    · exact binop_none trivial (vecOp_tup_ne_two (whenC_none h)) (Or.inr rfl) (Or.inr fun ks => by simp)
  | vec w =>
    refine table_of (fun h => h) (fun c h => ?_) (fun h => by simp [expected] at h)
    obtain rfl : Cls.vec = c := by simpa [expected] using h
    rw [binop_vec_vec]
    exact gives_map (fun _ => rfl) fun e he => vecVec_err he
  | affine T =>
    refine table_of (fun h => h) (fun c h => ?_) (fun h => ?_)
    · obtain ⟨rfl, rfl⟩ := whenC_some h
      rw [binop_affine_right T (.vec v) (.vec (T.apply v)) rfl (by simp)]
      exact Or.inl ⟨_, rfl, rfl⟩
    · have hop := whenC_none h
      refine binop_none trivial rfl (Or.inr ?_) (Or.inr fun ks => by simp)
      simp only [rightMeth, hop, if_false]
  | seq c s =>
    have hs : s.length ≠ 2 := ha
    cases c with
    | array =>
      refine table_of (fun h => h) (fun c h => ?_) (fun h => ?_)
      · obtain ⟨hop, rfl⟩ := whenC_some h
        rw [binop_vec_arr op s v hop hs]
        exact mapM_vecVec_gives .array (fun _ => v) id s fun a h1 h2 => ⟨a, h1, h2⟩
      · have hop := whenC_none h
        refine binop_none trivial (vecOp_seq_ne_two hs) (Or.inr ?_) (Or.inr fun ks => by simp)
        simp only [rightMeth, arrROp, hop, if_false]
    | seq2 =>
      refine table_of (fun h => h) (fun c h => by simp [expected] at h) (fun h => ?_)
      exact binop_none trivial (vecOp_seq_ne_two hs) (Or.inr rfl) (Or.inr fun ks => by simp)
    | polygon =>
      refine table_of (fun h => h) (fun c h => by simp [expected] at h) (fun h => ?_)
      exact binop_none trivial (vecOp_seq_ne_two hs) (Or.inr rfl) (Or.inr fun ks => by simp)

theorem table_affine (op : BinOp) (T : Affine K) (r : Operand K) : Table op (.affine T) r := by
  have hadd : op = .add → binop op (.affine T) r = .error .typeError := by
    rintro rfl
    exact binop_left_err (by cases r <;> trivial) (by simp only [leftMeth, if_true])
  have hother : op ≠ .mul → binop op (.affine T) r = .error .typeError := by
    intro hm
    by_cases h : op = .add
    · exact hadd h
    · refine binop_none (by cases r <;> trivial) (by simp only [leftMeth, h, hm, if_false]) ?_ (Or.inl h)
      cases r with
      | affine S => exact Or.inl rfl
      | num k => exact Or.inr rfl
      | tup ks => exact Or.inr rfl
      | vec v => exact Or.inr (by simp [rightMeth, vecROp])
      | seq c s =>
        cases c with
        | seq2 => exact Or.inr rfl
        | polygon => exact Or.inr rfl
        | array => exact Or.inr (by simp [rightMeth, arrROp, h, hm])
  have key : ∀ f, affMul T r = .ok (some f) → op = .mul → binop op (.affine T) r = .ok f := by
    rintro f hf rfl; exact binop_affine T r f hf
  cases r with
  | num k =>
    refine table_of (fun h => h) (fun c h => by simp [expected] at h) (fun h => ?_)
    by_cases hm : op = .mul
    · subst hm; exact binop_none trivial rfl (Or.inr rfl) (Or.inl (by simp))
    · exact hother hm
  | tup ks =>
    refine table_of (fun h => h) (fun c h => ?_) (fun h => ?_)
    · obtain ⟨⟨hm, h2⟩, rfl⟩ := whenC_some h
      obtain ⟨x, y, rfl⟩ := two_of_length h2
      exact Or.inl ⟨_, key _ rfl hm, rfl⟩
    · by_cases hm : op = .mul
      · subst hm
        have h2 : ks.length ≠ 2 := fun h2 => whenC_none h ⟨rfl, h2⟩
        exact binop_none trivial (by simp [leftMeth, affMul_tup_ne_two h2]) (Or.inr rfl) (Or.inl (by simp))
      · exact hother hm
  | vec w =>
    refine table_of (fun h => h) (fun c h => ?_) (fun h => hother (whenC_none h))
    obtain ⟨hm, rfl⟩ := whenC_some h
    exact Or.inl ⟨_, key _ rfl hm, rfl⟩
  | affine S =>
    refine table_of (fun h => h) (fun c h => ?_) (fun h => hother (whenC_none h))
    obtain ⟨hm, rfl⟩ := whenC_some h
    exact Or.inl ⟨_, key _ rfl hm, rfl⟩
  | seq c s =>
    have he : expected op (.affine T) (.seq c s) = whenC (op = .mul) (.seq c) := by cases c <;> rfl
    refine table_of (fun h => h) (fun d h => ?_) (fun h => hother (whenC_none (he ▸ h)))
    rw [he] at h
    obtain ⟨hm, rfl⟩ := whenC_some h
    exact Or.inl ⟨_, key _ rfl hm, rfl⟩

theorem table_num (op : BinOp) (k : K) (r : Operand K) (ho : Ours (.num k) r) : Table op (.num k) r := by
  cases r with
  | num _ => exact ho.elim
  | tup _ => exact ho.elim
  | vec v =>
    refine table_of (fun h => h) (fun c h => ?_) (fun h => ?_)
    · obtain ⟨hop, rfl⟩ := whenC_some h
      rw [binop_num_vec op v k hop]
      exact gives_map (fun _ => rfl) fun e he => numVec_err hop he
    · have hop := not_addsub (whenC_none h)
      exact binop_none trivial rfl (Or.inr (by simp only [rightMeth, vecROp, hop, if_true])) (Or.inr fun ks => by simp)
  | affine T =>
    refine table_of (fun h => h) (fun c h => by simp [expected] at h) (fun h => ?_)
    refine binop_none trivial rfl (Or.inr ?_) (Or.inr fun ks => by simp)
    simp only [rightMeth, affMul, ite_self]
  | seq c s =>
    cases c with
    | array =>
      refine table_of (fun h => h) (fun c h => ?_) (fun h => ?_)
      · obtain ⟨rfl, rfl⟩ := whenC_some h
        rw [binop_num_arr]
        refine gives_map (fun _ => rfl) fun e he => ?_
        obtain ⟨a, ha, hh⟩ := mapM_err he
        cases hh
      · have hm := whenC_none h
        refine binop_none trivial rfl (Or.inr ?_) (Or.inr fun ks => by simp)
        cases op <;> first | rfl | exact absurd rfl hm
    | seq2 =>
      exact table_of (fun h => h) (fun c h => by simp [expected] at h) fun h =>
        binop_none trivial rfl (Or.inr rfl) (Or.inr fun ks => by simp)
    | polygon =>
      exact table_of (fun h => h) (fun c h => by simp [expected] at h) fun h =>
        binop_none trivial rfl (Or.inr rfl) (Or.inr fun ks => by simp)

theorem table_tup (op : BinOp) (ks : List K) (r : Operand K) (ho : Ours (.tup ks) r)
    (ha : ¬ Accident op (.tup ks) r) : Table op (.tup ks) r := by
  cases r with
  | num _ => exact ho.elim
  | tup _ => exact ho.elim
  | vec v =>
    have hadd : op ≠ .add := ha
    refine table_of (fun h => h) (fun c h => ?_) (fun h => ?_)
    · obtain ⟨⟨h2, hop⟩, rfl⟩ := whenC_some h
      obtain ⟨x, y, rfl⟩ := two_of_length h2
      rw [binop_tup_vec op v x y hop]
      exact gives_map (fun _ => rfl) fun e he => vecVec_err he
    · have hop := whenC_none h
      refine binop_none trivial rfl (Or.inr ?_) (Or.inl hadd)
      by_cases h2 : ks.length = 2
      · have : op = .sub := by by_contra hs; exact hop ⟨h2, hadd, hs⟩
        subst this
        obtain ⟨x, y, rfl⟩ := two_of_length h2
        rfl
      · exact vecROp_tup_ne_two h2
  | affine T =>
    have hadd : op ≠ .add := ha
    refine table_of (fun h => h) (fun c h => ?_) (fun h => ?_)
    · obtain ⟨⟨rfl, h2⟩, rfl⟩ := whenC_some h
      obtain ⟨x, y, rfl⟩ := two_of_length h2
      rw [binop_affine_right T (.tup [x, y]) (.vec (T.apply ⟨x, y⟩)) rfl (by simp)]
      exact Or.inl ⟨_, rfl, rfl⟩
    · refine binop_none trivial rfl (Or.inr ?_) (Or.inl hadd)
      by_cases hm : op = .mul
      · simp only [rightMeth, hm, if_true]; exact affMul_tup_ne_two fun h2 => whenC_none h ⟨hm, h2⟩
      · simp only [rightMeth, hm, if_false]
  | seq c s =>
    cases c with
    | array =>
      refine table_of (fun h => h) (fun c h => ?_) (fun h => ?_)
      · obtain ⟨⟨h2, hop⟩, rfl⟩ := whenC_some h
        obtain ⟨x, y, rfl⟩ := two_of_length h2
        rw [binop_tup_arr op s x y hop]
        exact mapM_vecVec_gives .array (fun _ => ⟨x, y⟩) id s fun a h1 h2 => ⟨a, h1, h2⟩
      · have hm := whenC_none h
        have hR : rightMeth op (.tup ks) (.seq .array s) = notImpl := by
          by_cases hop : op = .add ∨ op = .mul
          · simp only [rightMeth, arrROp, hop, if_true]; exact arrOp_tup_ne_two fun h2 => hm ⟨h2, hop⟩
          · simp only [rightMeth, arrROp, hop, if_false]
        rw [binop_unfold ho]
        simp only [hR, leftMeth, notImpl, sameClass, asTuple, bind, Except.bind]
        cases op <;> rfl
    | seq2 =>
      refine table_of (fun h => h) (fun c h => by simp [expected] at h) fun h => ?_
      rw [binop_unfold ho]; cases op <;> rfl
    | polygon =>
      refine table_of (fun h => h) (fun c h => by simp [expected] at h) fun h => ?_
      rw [binop_unfold ho]; cases op <;> rfl

theorem table_arr (op : BinOp) (s : List (Vec2 K)) (r : Operand K) (ha : ¬ Accident op (.seq .array s) r) :
    Table op (.seq .array s) r := by
  cases r with
  | num k =>
    refine table_of (fun h => h) (fun c h => ?_) (fun h => ?_)
    · obtain ⟨hop, rfl⟩ := whenC_some h
      rw [binop_arr_num op s k hop]
      refine gives_map (fun _ => rfl) fun e he => ?_
      obtain ⟨a, -, hh⟩ := mapM_err he
      exact vecNum_err hop hh
    · have hop := not_addsub (whenC_none h)
      refine binop_none trivial ?_ (Or.inr rfl) (Or.inr fun ks => by simp)
      simp only [leftMeth, arrOp, hop, if_true]
  | tup ks =>
    refine table_of (fun h => h) (fun c h => ?_) (fun h => ?_)
    · obtain ⟨h2, rfl⟩ := whenC_some h
      obtain ⟨x, y, rfl⟩ := two_of_length h2
      rw [binop_arr_tup]
      refine mapM_vecVec_gives .array id (fun _ => ⟨x, y⟩) s fun a _ h => ?_
      simp only [HasZero, List.mem_cons]
      rcases h with h | h
      · exact Or.inl h.symm
      · exact Or.inr (Or.inl h.symm)
    · exact binop_none trivial (arrOp_tup_ne_two (whenC_none h)) (Or.inr rfl) (Or.inr fun ks => by simp)
  | vec v =>
    refine table_of (fun h => h) (fun c h => ?_) (fun h => by simp [expected] at h)
    obtain rfl : Cls.seq .array = c := by simpa [expected] using h
    rw [binop_arr_vec]
    exact mapM_vecVec_gives .array id (fun _ => v) s fun a _ h => h
  | affine T =>
    refine table_of (fun h => h) (fun c h => ?_) (fun h => ?_)
    · obtain ⟨rfl, rfl⟩ := whenC_some h
      rw [binop_affine_right T (.seq .array s) (.seq .array (T.applyPts s)) rfl (by simp)]
      exact Or.inl ⟨_, rfl, rfl⟩
    · have hop := whenC_none h
      refine binop_none trivial rfl (Or.inr ?_) (Or.inr fun ks => by simp)
      simp only [rightMeth, hop, if_false]
  | seq d o =>
    have gz : ∀ ab ∈ s.zip o, ((ab.2).x = 0 ∨ (ab.2).y = 0) → HasZero (.seq d o) := fun ab h1 h2 =>
      ⟨ab.2, (List.of_mem_zip h1).2, h2⟩
    have key : (d = .array ∨ op = .add ∨ op = .mul) → expected op (.seq .array s) (.seq d o) = some (.seq d) →
        Table op (.seq .array s) (.seq d o) := by
      intro h he
      have hb := binop_arr_seq op d s o h
      refine ⟨fun hd _ => ?_, fun hd c hc => ?_, fun hn => by rw [he] at hn; simp at hn⟩
      · rw [hb, if_neg hd]
      · have hd : s.length = o.length := by by_contra hh; exact hd hh
        rw [he] at hc
        obtain rfl : Cls.seq d = c := by simpa using hc
        rw [hb, if_pos hd]
        exact mapM_vecVec_gives d (fun ab : Vec2 K × Vec2 K => ab.1) (fun ab => ab.2) (s.zip o) gz
    by_cases hk : d = .array ∨ op = .add ∨ op = .mul
    · refine key hk ?_
      rcases hk with rfl | hk
      · rfl
      · cases d
        · simp only [expected, whenC, hk, if_true]
        · rfl
        · simp only [expected, whenC, hk, if_true]
    · push Not at hk
      have hA : o.length ≠ 2 := by
        intro h
        refine ha ?_
        exact ⟨hk.1, h, hk.2⟩
      have he : expected op (.seq .array s) (.seq d o) = none := by
        cases d
        · simp only [expected, whenC, hk.2.1, hk.2.2, or_self, if_false]
        · exact absurd rfl hk.1
        · simp only [expected, whenC, hk.2.1, hk.2.2, or_self, if_false]
      have hb : binop op (.seq .array s) (.seq d o) = .error .typeError := by
        refine binop_none trivial ?_ (Or.inr ?_) (Or.inr fun ks => by simp)
        · simp only [leftMeth, arrOp, hk.1, hk.2.1, hk.2.2, or_self, if_false]
          match o, hA with
          | [], _ => rfl
          | [a], _ => rfl
          | [a, b], h => exact absurd rfl h
          | a :: b :: c :: l, _ => rfl
        · cases d
          · rfl
          · exact absurd rfl hk.1
          · rfl
      exact ⟨fun _ h => absurd he h, fun _ c hc => by rw [he] at hc; simp at hc, fun _ => hb⟩

theorem table_seq (op : BinOp) (c : SeqCls) (hc : c ≠ .array) (s : List (Vec2 K)) (r : Operand K)
    (ha : ¬ Accident op (.seq c s) r) : Table op (.seq c s) r := by
  have hL : ∀ r, leftMeth op (.seq c s) r = notImpl := by
    intro r; cases c
    · cases r <;> rfl
    · exact absurd rfl hc
    · cases r <;> rfl
  have bad : ∀ r, rightMeth op (.seq c s) r = notImpl → binop op (.seq c s) r = .error .typeError := fun r h =>
    binop_none (by cases r <;> trivial) (hL r) (Or.inr h) (Or.inr fun ks => by simp)
  cases r with
  | num k =>
    exact table_of (fun h => h) (fun d h => by cases c <;> simp [expected] at h ⊢ <;> exact absurd rfl hc) fun _ => bad _ rfl
  | tup ks =>
    exact table_of (fun h => h) (fun d h => by cases c <;> simp [expected] at h ⊢ <;> exact absurd rfl hc) fun _ => bad _ rfl
  | vec v =>
    refine table_of (fun h => h) (fun d h => by cases c <;> simp [expected] at h ⊢ <;> exact absurd rfl hc) fun _ => bad _ ?_
    by_cases h2 : s.length = 2
    · have hop : op = .add ∨ op = .sub := by
        by_contra hh; push Not at hh
        cases c
        · exact ha ⟨hc, h2, hh⟩
        · exact absurd rfl hc
        · exact ha ⟨hc, h2, hh⟩
      obtain ⟨x, y, rfl⟩ := two_of_length h2
      simp only [rightMeth, vecROp, hop, if_true]
    · exact vecROp_seq_ne_two h2
  | affine T =>
    have he : expected op (.seq c s) (.affine T) = whenC (op = .mul) (.seq c) := by cases c <;> rfl
    refine table_of (fun h => h) (fun d h => ?_) (fun h => ?_)
    · rw [he] at h
      obtain ⟨rfl, rfl⟩ := whenC_some h
      rw [binop_affine_right T (.seq c s) (.seq c (T.applyPts s)) rfl (by simp)]
      exact Or.inl ⟨_, rfl, rfl⟩
    · rw [he] at h
      exact bad _ (by simp only [rightMeth, whenC_none h, if_false])
  | seq d o =>
    cases d with
    | array =>
      have he : expected op (.seq c s) (.seq .array o) = some (.seq c) := by cases c <;> rfl
      have hb := binop_seq_arr op c s o
      refine ⟨fun hd _ => ?_, fun hd d hc => ?_, fun hn => by rw [he] at hn; simp at hn⟩
      · rw [hb, if_neg hd]
      · have hd : s.length = o.length := by by_contra hh; exact hd hh
        rw [he] at hc
        obtain rfl : Cls.seq c = d := by simpa using hc
        rw [hb, if_pos hd]
        exact mapM_vecVec_gives c (fun ab : Vec2 K × Vec2 K => ab.1) (fun ab => ab.2) (s.zip o) fun ab h1 h2 =>
          ⟨ab.2, (List.of_mem_zip h1).2, h2⟩
    | seq2 =>
      have he : expected op (.seq c s) (.seq .seq2 o) = none := by
        cases c
        · rfl
        · exact absurd rfl hc
        · rfl
      exact ⟨fun _ h => absurd he h, fun _ c hc => by rw [he] at hc; simp at hc, fun _ => bad _ rfl⟩
    | polygon =>
      have he : expected op (.seq c s) (.seq .polygon o) = none := by
        cases c
        · rfl
        · exact absurd rfl hc
        · rfl
      exact ⟨fun _ h => absurd he h, fun _ c hc => by rw [he] at hc; simp at hc, fun _ => bad _ rfl⟩

/-- **C71** (partial: the accidents of duck typing listed in `Accident` are excluded) for every operator and every pair of
operands of which one at least is of planar: two sequences of different lengths raise ValueError; a supported
combination returns a value of the class the documentation says, unless it divides by a zero, which raises
ZeroDivisionError; every other combination raises TypeError. -/
theorem C71_class_partial (op : BinOp) (l r : Operand K) (ho : Ours l r) (ha : ¬ Accident op l r) :
    (LengthsDiffer l r → expected op l r ≠ none → binop op l r = .error .valueError) ∧
    (¬ LengthsDiffer l r → ∀ c, expected op l r = some c → Gives op r c (binop op l r)) ∧
    (expected op l r = none → binop op l r = .error .typeError) := by
  cases l with
  | num k => exact table_num op k r ho
  | tup ks => exact table_tup op ks r ho ha
  | vec v => exact table_vec op v r ha
  | affine T => exact table_affine op T r
  | seq c s =>
    by_cases hc : c = .array
    · subst hc; exact table_arr op s r ha
    · exact table_seq op c hc s r ha

/-! ### the items of the result -/

theorem items_of {α : Type} (c : SeqCls) (f : α → Py (Vec2 K)) (x : List α) (vs : List (Vec2 K)) (P : Nat → Vec2 K → Prop)
    (hP : ∀ i (h : i < x.length) v, P i v ↔ f x[i] = .ok v) :
    (x.mapM f).map (Value.seq c) = .ok (.seq c vs) ↔
      vs.length = x.length ∧ ∀ i, i < x.length → ∃ v, vs[i]? = some v ∧ P i v := by
  have h1 : (x.mapM f).map (Value.seq c) = .ok (.seq c vs) ↔ x.mapM f = .ok vs := by
    rw [map_ok]
    constructor
    · rintro ⟨a, h, h'⟩
      obtain rfl : a = vs := by simpa using h'
      exact h
    · intro h; exact ⟨vs, h, rfl⟩
  rw [h1, mapM_ok]
  refine and_congr_right fun hl => ?_
  constructor
  · intro h i hi
    exact ⟨vs[i]'(hl ▸ hi), List.getElem?_eq_getElem _, (hP i hi _).mpr (h i hi (hl ▸ hi))⟩
  · intro h i hi hi'
    obtain ⟨v, hv, hp⟩ := h i hi
    rw [List.getElem?_eq_getElem hi'] at hv
    obtain rfl : vs[i] = v := by simpa using hv
    exact (hP i hi _).mp hp

theorem map_vec_ok {x : Py (Vec2 K)} {v : Vec2 K} : x.map Value.vec = .ok (.vec v) ↔ x = .ok v := by
  rw [map_ok]
  constructor
  · rintro ⟨a, h, h'⟩
    obtain rfl : a = v := by simpa using h'
    exact h
  · intro h; exact ⟨v, h, rfl⟩

theorem item_seq {c : SeqCls} {s : List (Vec2 K)} {i : Nat} (h : i < s.length) : item i (.seq c s) = some (.vec s[i]) := by
  simp only [item, List.getElem?_eq_getElem h, Option.map_some]

theorem exists_items {op : BinOp} {l r a b : Operand K} {i : Nat} {v : Vec2 K} (ha : item i l = some a)
    (hb : item i r = some b) :
    (∃ a b, item i l = some a ∧ item i r = some b ∧ binop op a b = .ok (.vec v)) ↔ binop op a b = .ok (.vec v) := by
  constructor
  · rintro ⟨a', b', h1, h2, h3⟩
    rw [ha] at h1; rw [hb] at h2
    obtain rfl : a = a' := by simpa using h1
    obtain rfl : b = b' := by simpa using h2
    exact h3
  · intro h; exact ⟨a, b, ha, hb, h⟩

/-- **C71** a supported operation that gives a sequence works item by item: it returns the sequence `vs` exactly when
`vs` has as many items as the sequence operands, and each item is the vector the same operator gives for the
corresponding items of the operands (the operand itself if it is a vector, a pair, a number or a transform). -/
theorem C71_items (op : BinOp) (l r : Operand K) (ha : ¬ Accident op l r) (hd : ¬ LengthsDiffer l r) (c : SeqCls)
    (he : expected op l r = some (.seq c)) (vs : List (Vec2 K)) :
    binop op l r = .ok (.seq c vs) ↔
      vs.length = count l r ∧ ∀ i, i < count l r → ∃ v, vs[i]? = some v ∧
        ∃ a b, item i l = some a ∧ item i r = some b ∧ binop op a b = .ok (.vec v) := by
  have hseq : ∀ (c d : SeqCls) (s o : List (Vec2 K)) (e : SeqCls), s.length = o.length →
      binop op (.seq c s) (.seq d o) = ((s.zip o).mapM fun ab => vecVec op ab.1 ab.2).map (.seq e) →
      (binop op (.seq c s) (.seq d o) = .ok (.seq e vs) ↔
        vs.length = s.length ∧ ∀ i, i < s.length → ∃ v, vs[i]? = some v ∧
        ∃ a b, item i (.seq c s) = some a ∧ item i (.seq d o) = some b ∧ binop op a b = .ok (.vec v)) := by
    intro c d s o e hl hb
    rw [hb, items_of e _ _ vs (fun i v => ∃ a b, item i (.seq c s) = some a ∧ item i (.seq d o) = some b ∧
      binop op a b = .ok (.vec v))]
    · rw [show (s.zip o).length = s.length by simp [hl]]
    · intro i hi v
      have h1 : i < s.length := by simp at hi; omega
      have h2 : i < o.length := hl ▸ h1
      rw [exists_items (item_seq h1) (item_seq h2), binop_vec_vec, map_vec_ok, List.getElem_zip]
  have haff : ∀ (T : Affine K) (s : List (Vec2 K)) (e : SeqCls) (P : Nat → Vec2 K → Prop),
      (∀ i (h : i < s.length) v, P i v ↔ (.ok (T.apply s[i]) : Py (Vec2 K)) = .ok v) →
      ((.ok (.seq e (T.applyPts s)) : Py (Value K)) = .ok (.seq e vs) ↔
        vs.length = s.length ∧ ∀ i, i < s.length → ∃ v, vs[i]? = some v ∧ P i v) := by
    intro T s e P hP
    rw [← items_of e (fun a => .ok (T.apply a)) s vs P hP]
    have : (s.mapM fun a => (.ok (T.apply a) : Py (Vec2 K))) = .ok (T.applyPts s) := by
      rw [mapM_ok]
      simp only [Affine.applyPts, Affine.apply, List.length_map, List.getElem_map, implies_true, and_self]
    rw [this]; rfl
  cases l with
  | num k =>
    cases r with
    | seq d s =>
      cases d with
      | array =>
        obtain ⟨rfl, h⟩ := whenC_some he
        obtain rfl : SeqCls.array = c := by simpa using h
        rw [binop_num_arr]
        refine items_of .array _ s vs _ fun i hi v => ?_
        rw [exists_items (a := .num k) rfl (item_seq hi), binop_num_vec _ _ _ (by simp), map_vec_ok]
      | seq2 => simp [expected] at he
      | polygon => simp [expected] at he
    | num _ => simp [expected] at he
    | tup _ => simp [expected] at he
    | vec _ => have := (whenC_some he).2; simp at this
    | affine _ => simp [expected] at he
  | tup ks =>
    cases r with
    | seq d s =>
      cases d with
      | array =>
        obtain ⟨⟨h2, hop⟩, h⟩ := whenC_some he
        obtain rfl : SeqCls.array = c := by simpa using h
        obtain ⟨x, y, rfl⟩ := two_of_length h2
        rw [binop_tup_arr op s x y hop]
        refine items_of .array _ s vs _ fun i hi v => ?_
        rw [exists_items (a := .vec ⟨x, y⟩) rfl (item_seq hi), binop_vec_vec, map_vec_ok]
      | seq2 => simp [expected] at he
      | polygon => simp [expected] at he
    | num _ => simp [expected] at he
    | tup _ => simp [expected] at he
    | vec _ => have := (whenC_some he).2; simp at this
    | affine _ => have := (whenC_some he).2; simp at this
  | vec w =>
    cases r with
    | seq d s =>
      cases d with
      | array =>
        obtain ⟨hop, h⟩ := whenC_some he
        obtain rfl : SeqCls.array = c := by simpa using h
        rw [binop_vec_arr op s w hop ha]
        refine items_of .array _ s vs _ fun i hi v => ?_
        rw [exists_items (a := .vec w) rfl (item_seq hi), binop_vec_vec, map_vec_ok]
      | seq2 => simp [expected] at he
      | polygon => simp [expected] at he
    | num _ => have := (whenC_some he).2; simp at this
    | tup _ => have := (whenC_some he).2; simp at this
    | vec _ => simp [expected] at he
    | affine _ => have := (whenC_some he).2; simp at this
  | affine T =>
    cases r with
    | seq d s =>
      have he' : expected op (.affine T) (.seq d s) = whenC (op = .mul) (.seq d) := by cases d <;> rfl
      rw [he'] at he
      obtain ⟨rfl, h⟩ := whenC_some he
      obtain rfl : d = c := by simpa using h
      rw [binop_affine T (.seq d s) (.seq d (T.applyPts s)) rfl]
      refine haff T s d _ fun i hi v => ?_
      rw [exists_items (a := .affine T) rfl (item_seq hi), binop_affine T (.vec s[i]) (.vec (T.apply s[i])) rfl]
      simp
    | num _ => simp [expected] at he
    | tup _ => have := (whenC_some he).2; simp at this
    | vec _ => have := (whenC_some he).2; simp at this
    | affine _ => have := (whenC_some he).2; simp at this
  | seq e s =>
    cases r with
    | affine T =>
      have he' : expected op (.seq e s) (.affine T) = whenC (op = .mul) (.seq e) := by cases e <;> rfl
      rw [he'] at he
      obtain ⟨rfl, h⟩ := whenC_some he
      obtain rfl : e = c := by simpa using h
      rw [binop_affine_right T (.seq e s) (.seq e (T.applyPts s)) rfl (by simp)]
      refine haff T s e _ fun i hi v => ?_
      rw [exists_items (b := .affine T) (item_seq hi) rfl,
        binop_affine_right T (.vec s[i]) (.vec (T.apply s[i])) rfl (by simp)]
      simp
    | seq d o =>
      have hl : s.length = o.length := by by_contra hh; exact hd hh
      by_cases hda : d = .array
      · subst hda
        have : expected op (.seq e s) (.seq .array o) = some (.seq e) := by cases e <;> rfl
        rw [this] at he
        obtain rfl : e = c := by simpa using he
        exact hseq e .array s o e hl (by rw [binop_seq_arr, if_pos hl])
      · by_cases hea : e = .array
        · subst hea
          have : expected op (.seq .array s) (.seq d o) = whenC (op = .add ∨ op = .mul) (.seq d) := by
            cases d
            · rfl
            · exact absurd rfl hda
            · rfl
          rw [this] at he
          obtain ⟨hop, h⟩ := whenC_some he
          obtain rfl : d = c := by simpa using h
          exact hseq .array d s o d hl (by rw [binop_arr_seq op d s o (Or.inr hop), if_pos hl])
        · exfalso
          have : expected op (.seq e s) (.seq d o) = none := by
            cases e <;> cases d <;> first | rfl | exact absurd rfl hda | exact absurd rfl hea
          rw [this] at he; simp at he
    | num k =>
      cases e with
      | array =>
        obtain ⟨hop, h⟩ := whenC_some he
        obtain rfl : SeqCls.array = c := by simpa using h
        rw [binop_arr_num op s k hop]
        refine items_of .array _ s vs _ fun i hi v => ?_
        rw [exists_items (b := .num k) (item_seq hi) rfl, binop_vec_num _ _ _ hop, map_vec_ok]
      | seq2 => simp [expected] at he
      | polygon => simp [expected] at he
    | tup ks =>
      cases e with
      | array =>
        obtain ⟨h2, h⟩ := whenC_some he
        obtain rfl : SeqCls.array = c := by simpa using h
        obtain ⟨x, y, rfl⟩ := two_of_length h2
        rw [binop_arr_tup op s x y]
        refine items_of .array _ s vs _ fun i hi v => ?_
        rw [exists_items (b := .vec ⟨x, y⟩) (item_seq hi) rfl, binop_vec_vec, map_vec_ok]
      | seq2 => simp [expected] at he
      | polygon => simp [expected] at he
    | vec w =>
      cases e with
      | array =>
        obtain rfl : SeqCls.array = c := by simpa [expected] using he
        rw [binop_arr_vec op s w]
        refine items_of .array _ s vs _ fun i hi v => ?_
        rw [exists_items (b := .vec w) (item_seq hi) rfl, binop_vec_vec, map_vec_ok]
      | seq2 => simp [expected] at he
      | polygon => simp [expected] at he

/-- **C71** a transform multiplies from either side with the same result, whatever the other operand is (a transform
apart), including the exceptions. -/
theorem C71_transform_either_side (T : Affine K) (x : Operand K) (hx : ∀ S, x ≠ .affine S) :
    binop .mul x (.affine T) = binop .mul (.affine T) x := by
  cases h : affMul T x with
  | error e => cases x with
    | tup ks => exact absurd h (by
        by_cases h2 : ks.length = 2
        · obtain ⟨a, b, rfl⟩ := two_of_length h2; simp [affMul]
        · rw [affMul_tup_ne_two h2]; simp [notImpl])
    | _ => simp [affMul, notImpl] at h
  | ok o =>
    cases o with
    | some f => rw [binop_affine T x f h, binop_affine_right T x f h hx]
    | none =>
      have ho : Ours x (.affine T) := by cases x <;> trivial
      have ho' : Ours (.affine T) x := by cases x <;> trivial
      have hR : binop .mul (.affine T) x = .error .typeError := by
        refine binop_none ho' (by simp [leftMeth, h, notImpl]) ?_ (Or.inl (by simp))
        cases x with
        | affine S => exact Or.inl rfl
        | num k => exact Or.inr rfl
        | tup k => exact Or.inr rfl
        | vec v => simp [affMul] at h
        | seq c s => simp [affMul] at h
      rw [hR]
      refine binop_none ho ?_ (Or.inr (by simp [rightMeth, h, notImpl])) (Or.inl (by simp))
      cases x with
      | affine S => exact absurd rfl (hx S)
      | num k => rfl
      | tup k => rfl
      | vec v => simp [affMul] at h
      | seq c s => simp [affMul] at h

/-- **C71** the operators on single vectors: coordinate by coordinate between two vectors, with the number for both
coordinates otherwise; division by a zero raises ZeroDivisionError; a transform maps the vector. -/
theorem C71_vectors (a b : Vec2 K) (k : K) (T : Affine K) :
    binop .add (.vec a) (.vec b) = .ok (.vec ⟨a.x + b.x, a.y + b.y⟩) ∧
    binop .sub (.vec a) (.vec b) = .ok (.vec ⟨a.x - b.x, a.y - b.y⟩) ∧
    binop .mul (.vec a) (.vec b) = .ok (.vec ⟨a.x * b.x, a.y * b.y⟩) ∧
    binop .truediv (.vec a) (.vec b) =
      (if b.x = 0 ∨ b.y = 0 then .error .zeroDivisionError else .ok (.vec ⟨a.x / b.x, a.y / b.y⟩)) ∧
    binop .floordiv (.vec a) (.vec b) =
      (if b.x = 0 ∨ b.y = 0 then .error .zeroDivisionError
       else .ok (.vec ⟨PyMath.fdiv a.x b.x, PyMath.fdiv a.y b.y⟩)) ∧
    binop .mul (.vec a) (.num k) = .ok (.vec ⟨a.x * k, a.y * k⟩) ∧
    binop .mul (.num k) (.vec a) = .ok (.vec ⟨k * a.x, k * a.y⟩) ∧
    binop .truediv (.vec a) (.num k) =
      (if k = 0 then .error .zeroDivisionError else .ok (.vec ⟨a.x / k, a.y / k⟩)) ∧
    binop .truediv (.num k) (.vec a) =
      (if a.x = 0 ∨ a.y = 0 then .error .zeroDivisionError else .ok (.vec ⟨k / a.x, k / a.y⟩)) ∧
    binop .floordiv (.vec a) (.num k) =
      (if k = 0 then .error .zeroDivisionError else .ok (.vec ⟨PyMath.fdiv a.x k, PyMath.fdiv a.y k⟩)) ∧
    binop .floordiv (.num k) (.vec a) =
      (if a.x = 0 ∨ a.y = 0 then .error .zeroDivisionError
       else .ok (.vec ⟨PyMath.fdiv k a.x, PyMath.fdiv k a.y⟩)) ∧
    binop .mul (.affine T) (.vec a) =
      .ok (.vec ⟨a.x * T.a + a.y * T.d + T.c, a.x * T.b + a.y * T.e + T.f⟩) := by
  have hd : ∀ x y z w : K, ((do let x ← pydiv x z; let y ← pydiv y w; return (⟨x, y⟩ : Vec2 K)) : Py (Vec2 K)).map Value.vec
      = if z = 0 ∨ w = 0 then .error .zeroDivisionError else .ok (.vec ⟨x / z, y / w⟩) := by
    intro x y z w
    by_cases hz : z = 0
    · simp [pydiv, hz, bind, Except.bind, Except.map]
    · by_cases hw : w = 0 <;> simp [pydiv, hz, hw, bind, Except.bind, Except.map, pure, Except.pure]
  have hf : ∀ x y z w : K, ((do let x ← pyfdiv x z; let y ← pyfdiv y w; return (⟨x, y⟩ : Vec2 K)) : Py (Vec2 K)).map Value.vec
      = if z = 0 ∨ w = 0 then .error .zeroDivisionError else .ok (.vec ⟨PyMath.fdiv x z, PyMath.fdiv y w⟩) := by
    intro x y z w
    by_cases hz : z = 0
    · simp [pyfdiv, hz, bind, Except.bind, Except.map]
    · by_cases hw : w = 0 <;> simp [pyfdiv, hz, hw, bind, Except.bind, Except.map, pure, Except.pure]
  refine ⟨binop_vec_vec .add a b, binop_vec_vec .sub a b, binop_vec_vec .mul a b, ?_, ?_, ?_, ?_, ?_, ?_, ?_, ?_, ?_⟩
  · rw [binop_vec_vec]; exact hd ..
  · rw [binop_vec_vec]; exact hf ..
  · rw [binop_vec_num _ _ _ (by simp)]; rfl
  · rw [binop_num_vec _ _ _ (by simp)]
    show Except.ok (Value.vec (⟨a.x * k, a.y * k⟩ : Vec2 K)) = _
    rw [mul_comm a.x, mul_comm a.y]
  · rw [binop_vec_num _ _ _ (by simp)]
    have := hd a.x a.y k k
    simp only [or_self] at this; exact this
  · rw [binop_num_vec _ _ _ (by simp)]; exact hd ..
  · rw [binop_vec_num _ _ _ (by simp)]
    have := hf a.x a.y k k
    simp only [or_self] at this; exact this
  · rw [binop_num_vec _ _ _ (by simp)]; exact hf ..
  · rw [binop_affine T (.vec a) (.vec (T.apply a)) rfl]; simp [Affine.apply, Vec2.mk']

/-- **C71** the accidents, exactly. A vector (or a transform-free operator) meeting a sequence of exactly two vectors takes
it for a vector: sums raise TypeError, also with an array, and products and quotients give a `Vec2` whose coordinates
are vectors; an array divided by a Seq2 or Polygon of two vectors gives an array of such things; a plain tuple plus a
vector is a longer tuple. -/
theorem C71_accidents (v p q : Vec2 K) (c : SeqCls) (d : SeqCls) (hd : d ≠ .array) (s : List (Vec2 K)) (ks : List K) :
    binop .add (.vec v) (.seq c [p, q]) = .error .typeError ∧
    binop .sub (.vec v) (.seq c [p, q]) = .error .typeError ∧
    binop .mul (.vec v) (.seq c [p, q]) = .ok (.nested ⟨p.smul v.x, q.smul v.y⟩) ∧
    binop .mul (.seq d [p, q]) (.vec v) = .ok (.nested ⟨p.smul v.x, q.smul v.y⟩) ∧
    (v.x ≠ 0 → v.y ≠ 0 → binop .truediv (.seq d [p, q]) (.vec v) =
      .ok (.nested ⟨⟨p.x / v.x, p.y / v.x⟩, ⟨q.x / v.y, q.y / v.y⟩⟩)) ∧
    (p.x ≠ 0 → p.y ≠ 0 → q.x ≠ 0 → q.y ≠ 0 → binop .truediv (.vec v) (.seq c [p, q]) =
      .ok (.nested ⟨⟨v.x / p.x, v.x / p.y⟩, ⟨v.y / q.x, v.y / q.y⟩⟩)) ∧
    (p.x ≠ 0 → p.y ≠ 0 → q.x ≠ 0 → q.y ≠ 0 → s ≠ [] → binop .truediv (.seq .array s) (.seq d [p, q]) =
      .ok (.seqNested .array (s.map fun a => ⟨⟨a.x / p.x, a.x / p.y⟩, ⟨a.y / q.x, a.y / q.y⟩⟩))) ∧
    (s ≠ [] → binop .sub (.seq .array s) (.seq d [p, q]) = .error .typeError) ∧
    binop .add (.tup ks) (.vec v) = .ok (.tup (ks ++ [v.x, v.y])) := by
  have hL : ∀ op r, leftMeth op (.seq d [p, q]) r = notImpl := by
    intro op r; cases d
    · cases r <;> rfl
    · exact absurd rfl hd
    · cases r <;> rfl
  have hS : sameClass (K := K) (.seq d [p, q]) (.vec v) = false := rfl
  refine ⟨?_, ?_, ?_, ?_, fun hx hy => ?_, fun h1 h2 h3 h4 => ?_, fun h1 h2 h3 h4 hs => ?_, fun hs => ?_, ?_⟩
  · exact binop_left_err trivial rfl
  · exact binop_left_err trivial rfl
  · exact binop_left (f := .nested) (x := .ok _) trivial rfl
  · exact binop_right (f := .nested) (x := .ok _) trivial (hL ..) hS rfl
  · refine binop_right (f := .nested) (x := .ok ⟨⟨p.x / v.x, p.y / v.x⟩, ⟨q.x / v.y, q.y / v.y⟩⟩) trivial (hL ..) hS ?_
    simp [rightMeth, vecROp, pair, vecNum, Vec2.sdiv, pydiv, hx, hy, bind, Except.bind, pure, Except.pure]
  · refine binop_left (f := .nested) (x := .ok ⟨⟨v.x / p.x, v.x / p.y⟩, ⟨v.y / q.x, v.y / q.y⟩⟩) trivial ?_
    simp [leftMeth, vecOp, pair, numVec, Vec2.rsdiv, pydiv, h1, h2, h3, h4, bind, Except.bind, pure, Except.pure]
  · have hm : (s.mapM fun a => pair (numVec .truediv a.x (p.smul 1)) (numVec .truediv a.y (q.smul 1))) =
        .ok (s.map fun a => (⟨⟨a.x / p.x, a.x / p.y⟩, ⟨a.y / q.x, a.y / q.y⟩⟩ : Vec2 (Vec2 K))) := by
      rw [mapM_ok]
      refine ⟨by simp, fun i h h' => ?_⟩
      simp [pair, numVec, Vec2.rsdiv, Vec2.smul, pydiv, h1, h2, h3, h4, bind, Except.bind, pure, Except.pure]
    have := binop_left (op := .truediv) (l := .seq .array s) (r := .seq d [p, q]) trivial
      (show leftMeth .truediv (.seq .array s) (.seq d [p, q]) = answer (mkNested .array)
        (s.mapM fun a => pair (numVec .truediv a.x (p.smul 1)) (numVec .truediv a.y (q.smul 1))) by
          simp [leftMeth, arrOp, hd])
    rw [this, hm]
    cases s with
    | nil => exact absurd rfl hs
    | cons a s => rfl
  · have := binop_left (op := .sub) (l := .seq .array s) (r := .seq d [p, q]) trivial
      (show leftMeth .sub (.seq .array s) (.seq d [p, q]) = answer (mkNested .array)
        (s.mapM fun a => pair (numVec .sub a.x (p.smul 1)) (numVec .sub a.y (q.smul 1))) by
          simp [leftMeth, arrOp, hd])
    rw [this]
    cases s with
    | nil => exact absurd rfl hs
    | cons a s => rfl
  · rw [binop_unfold (l := .tup ks) (r := .vec v) trivial]
    have h1 : rightMeth .add (.tup ks) (.vec v) = notImpl := by
      by_cases h2 : ks.length = 2
      · obtain ⟨x, y, rfl⟩ := two_of_length h2; rfl
      · exact vecROp_tup_ne_two h2
    rw [h1]; rfl

/-- **C71** as stated without exclusions is violated: `v + a` raises TypeError and `v * a` is not an array for every
vector `v` and every array `a` of two vectors, though both are supported for all other lengths; multiplying a polygon or
Seq2 of two vectors by a vector returns something instead of raising TypeError. -/
theorem C71_violated (v p q : Vec2 K) :
    (expected .add (.vec v) (.seq .array [p, q]) = some (.seq .array) ∧
      binop .add (.vec v) (.seq .array [p, q]) = .error .typeError) ∧
    (expected .mul (.vec v) (.seq .array [p, q]) = some (.seq .array) ∧
      ∀ vs, binop .mul (.vec v) (.seq .array [p, q]) ≠ .ok (.seq .array vs)) ∧
    (expected .mul (.seq .seq2 [p, q]) (.vec v) = none ∧
      binop .mul (.seq .seq2 [p, q]) (.vec v) ≠ .error .typeError) := by
  obtain ⟨h1, -, h3, h4, -⟩ := C71_accidents v p q .array .seq2 (by simp) [] []
  refine ⟨⟨rfl, h1⟩, ⟨rfl, fun vs h => ?_⟩, rfl, fun h => ?_⟩
  · rw [h3] at h; simp at h
  · rw [h4] at h; simp at h

/-! ### in place -/

/-- **C71** in place, for everything that is not a sequence: numbers, tuples, vectors and transforms never change; `x op= y`
binds the name to `x op y`, or raises what that raises. -/
theorem C71_in_place_new (op : BinOp) (l r : Operand K) (hl : ∀ c s, l ≠ .seq c s) :
    inplace op l r = (binop op l r).map fun v => (v, false) := by
  have hm : ∀ x : Py (Value K), (do let v ← x; return (v, false)) = x.map fun v => (v, false) := by
    intro x; cases x <;> rfl
  have hn : inplaceMeth op l r = .ok none → inplace op l r = (binop op l r).map fun v => (v, false) := by
    intro h; unfold inplace; rw [h]; exact hm _
  cases l with
  | num k => exact hn (by cases r <;> rfl)
  | tup ks => exact hn (by cases r <;> rfl)
  | seq c s => exact absurd rfl (hl c s)
  | vec v =>
    by_cases h : op = .mul
    · exact hn (by simp only [inplaceMeth, h, if_true])
    · have ho : Ours (.vec v) r := by cases r <;> trivial
      have hi : inplaceMeth op (.vec v) r = (vecOp op v r).map (Option.map fun x => (x, false)) := by
        simp only [inplaceMeth, h, if_false]
      cases hv : vecOp op v r with
      | error e =>
        rw [binop_left_err ho hv]
        unfold inplace; rw [hi, hv]; rfl
      | ok o =>
        cases o with
        | none => exact hn (by rw [hi, hv]; rfl)
        | some x =>
          rw [binop_left (f := fun _ : Unit => x) (x := .ok ()) ho hv]
          unfold inplace; rw [hi, hv]; rfl
  | affine T =>
    by_cases ha : op = .add
    · subst ha
      have ho : Ours (.affine T) r := by cases r <;> trivial
      rw [binop_left_err ho rfl]; rfl
    · by_cases hmul : op = .mul
      · subst hmul
        cases r with
        | affine S => rw [binop_affine T (.affine S) _ rfl]; rfl
        | vec v => rw [binop_affine T (.vec v) _ rfl]; rfl
        | num k => exact hn rfl
        | tup k => exact hn rfl
        | seq c s => exact hn rfl
      · exact hn (by simp only [inplaceMeth, ha, hmul, if_false])

/-- **C71** in place, for arrays: `a op= x` puts into the array what `a op x` gives, for a number, a pair, a vector, a
transform or another array `x` (and raises what `a op x` raises); `a += x` with another kind of sequence puts the sums
into the array, which stays an array; the other operators with another kind of sequence raise TypeError. -/
theorem C71_in_place_array (op : BinOp) (s : List (Vec2 K)) (r : Operand K) :
    ((∀ d o, r = .seq d o → d = .array) →
      inplace op (.seq .array s) r = (binop op (.seq .array s) r).map fun v => (v, true)) ∧
    (∀ d o, r = .seq d o → d ≠ .array → op = .add → s.length = o.length →
      ∃ vs, binop .add (.seq .array s) r = .ok (.seq d vs) ∧ inplace op (.seq .array s) r = .ok (.seq .array vs, true)) ∧
    (∀ d o, r = .seq d o → d ≠ .array → op = .add → s.length ≠ o.length →
      inplace op (.seq .array s) r = .error .valueError) ∧
    (∀ d o, r = .seq d o → d ≠ .array → op ≠ .add → o.length ≠ 2 →
      inplace op (.seq .array s) r = .error .typeError) := by
  have ho : Ours (.seq .array s) r := by cases r <;> trivial
  have hi : ∀ r, inplaceMeth op (.seq .array s) r = (arrIop op s r).map (Option.map fun x => (x, true)) := fun r => by
    cases r <;> rfl
  have same : arrIop op s r = arrOp op s r → (arrOp op s r = notImpl → binop op (.seq .array s) r = .error .typeError) →
      inplace op (.seq .array s) r = (binop op (.seq .array s) r).map fun v => (v, true) := by
    intro h hno
    cases hv : arrOp op s r with
    | error e =>
      rw [binop_left_err ho hv]
      unfold inplace; rw [hi, h, hv]; rfl
    | ok o =>
      cases o with
      | none =>
        unfold inplace; rw [hi, h, hv, hno hv]; rfl
      | some x =>
        rw [binop_left (f := fun _ : Unit => x) (x := .ok ()) ho hv]
        unfold inplace; rw [hi, h, hv]; rfl
  have hno' : (∀ l : Operand K, rightMeth op l r = notImpl) → arrOp op s r = notImpl →
      binop op (.seq .array s) r = .error .typeError := fun h1 h2 =>
    binop_none ho h2 (Or.inr (h1 _)) (Or.inr fun ks => by simp)
  refine ⟨fun hd => ?_, ?_, ?_, ?_⟩
  · cases r with
    | num k => exact same rfl (hno' fun l => by cases l <;> rfl)
    | vec v => exact same rfl (fun h => absurd h answer_ne)
    | tup ks =>
      by_cases h2 : ks.length = 2
      · obtain ⟨x, y, rfl⟩ := two_of_length h2
        exact same rfl (hno' fun l => by cases l <;> rfl)
      · have hb := hno' (fun l => by cases l <;> rfl) (arrOp_tup_ne_two h2)
        by_cases hm : op = .mul
        · subst hm
          have : arrIop .mul s (.tup ks) = .error .typeError := by
            match ks, h2 with
            | [], _ => rfl
            | [a], _ => rfl
            | [a, b], h => exact absurd rfl h
            | a :: b :: c :: l, _ => rfl
          rw [hb]; unfold inplace; rw [hi, this]; rfl
        · refine same ?_ fun _ => hb
          rw [arrOp_tup_ne_two h2]
          match ks, h2 with
          | [], _ => simp [arrIop, hm]
          | [a], _ => simp [arrIop, hm]
          | [a, b], h => exact absurd rfl h
          | a :: b :: c :: l, _ => simp [arrIop, hm]
    | affine T =>
      by_cases hm : op = .mul
      · subst hm
        rw [binop_affine_right T (.seq .array s) (.seq .array (T.applyPts s)) rfl (by simp), ← (C19_itransform T s).2.2]
        rfl
      · refine same (by simp only [arrIop, hm, if_false, arrOp]) (hno' fun l => ?_)
        cases l <;> simp only [rightMeth, hm, if_false]
    | seq d o =>
      obtain rfl := hd d o rfl
      refine same (by simp only [arrIop, arrOp, true_or, if_true]) fun h => ?_
      simp only [arrOp, true_or, if_true, zipSeq] at h
      split_ifs at h
      · exact absurd h answer_ne
      · exact absurd h (by simp [notImpl])
  · rintro d o rfl hd rfl hl
    have hm : ((s.zip o).mapM fun ab => vecVec .add ab.1 ab.2) = .ok ((s.zip o).map fun ab => ab.1 + ab.2) := by
      rw [mapM_ok]
      exact ⟨by simp, fun i h h' => by simp [vecVec]⟩
    refine ⟨(s.zip o).map fun ab => ab.1 + ab.2, ?_, ?_⟩
    · rw [binop_arr_seq .add d s o (by simp), if_pos hl, hm]; rfl
    · unfold inplace; rw [hi]; simp only [arrIop, or_true, if_true, zipSeq, hl, hm]; rfl
  · rintro d o rfl hd rfl hl
    unfold inplace; rw [hi]; simp only [arrIop, or_true, if_true, zipSeq, hl, if_false]; rfl
  · rintro d o rfl hd hop h2
    by_cases hm : op = .mul
    · subst hm
      have : arrIop .mul s (.seq d o) = .error .typeError := by
        simp only [arrIop, hd, reduceCtorEq, or_self, if_false]
        match o, h2 with
        | [], _ => rfl
        | [a], _ => rfl
        | [a, b], h => exact absurd rfl h
        | a :: b :: c :: l, _ => rfl
      unfold inplace; rw [hi, this]; rfl
    · have h1 : arrIop op s (.seq d o) = notImpl := by
        simp only [arrIop, hd, hop, hm, or_self, if_false]
        match o, h2 with
        | [], _ => rfl
        | [a], _ => rfl
        | [a, b], h => exact absurd rfl h
        | a :: b :: c :: l, _ => rfl
      have h3 : arrOp op s (.seq d o) = notImpl := by
        simp only [arrOp, hd, hop, hm, or_self, if_false]
        match o, h2 with
        | [], _ => rfl
        | [a], _ => rfl
        | [a, b], h => exact absurd rfl h
        | a :: b :: c :: l, _ => rfl
      have hb : binop op (.seq .array s) (.seq d o) = .error .typeError := by
        refine binop_none trivial h3 (Or.inr ?_) (Or.inr fun ks => by simp)
        cases d
        · rfl
        · exact absurd rfl hd
        · rfl
      unfold inplace; rw [hi, h1, hb]; rfl

/-- **C71** in place, for a Seq2 or Polygon: `p *= T` changes the object into `T * p` and `p *= x` with anything else raises
TypeError; the other in-place operators leave the object alone and bind the name to the result of `p op x`. -/
theorem C71_in_place_seq (op : BinOp) (c : SeqCls) (hc : c ≠ .array) (s : List (Vec2 K)) (r : Operand K) :
    (∀ T, r = .affine T → op = .mul → inplace op (.seq c s) r = (binop op (.seq c s) r).map fun v => (v, true)) ∧
    ((∀ T, r ≠ .affine T) → op = .mul → inplace op (.seq c s) r = .error .typeError) ∧
    (op ≠ .mul → inplace op (.seq c s) r = (binop op (.seq c s) r).map fun v => (v, false)) := by
  have hm : ∀ x : Py (Value K), (do let v ← x; return (v, false)) = x.map fun v => (v, false) := by
    intro x; cases x <;> rfl
  refine ⟨?_, fun hr hop => ?_, fun hop => ?_⟩
  · rintro T rfl rfl
    rw [binop_affine_right T (.seq c s) (.seq c (T.applyPts s)) rfl (by simp), ← (C19_itransform T s).2.2]
    unfold inplace
    have : inplaceMeth .mul (.seq c s) (.affine T) = .ok (some (.seq c (T.itransform s), true)) := by
      cases c
      · rfl
      · exact absurd rfl hc
      · rfl
    rw [this]; rfl
  · subst hop
    have : inplaceMeth .mul (.seq c s) r = .error .typeError := by
      cases r with
      | affine T => exact absurd rfl (hr T)
      | _ => cases c <;> first | rfl | exact absurd rfl hc
    unfold inplace; rw [this]; rfl
  · have : inplaceMeth op (.seq c s) r = .ok none := by
      cases r <;> cases c <;> first | exact absurd rfl hc | simp only [inplaceMeth, hop, if_false]
    unfold inplace; rw [this]; exact hm _

/-- The hypotheses of the theorems are met: a triangle minus an array of three vectors is a polygon, item by item;
an array plus a polygon is a polygon; an array minus a polygon is a TypeError. -/
example (a b c x y z : Vec2 K) :
    Ours (.seq .polygon [a, b, c]) (.seq .array [x, y, z]) ∧
    ¬ Accident .sub (.seq .polygon [a, b, c]) (.seq .array [x, y, z]) ∧
    ¬ LengthsDiffer (.seq .polygon [a, b, c]) (.seq .array [x, y, z]) ∧
    expected .sub (.seq .polygon [a, b, c]) (.seq .array [x, y, z]) = some (.seq .polygon) ∧
    binop .sub (.seq .polygon [a, b, c]) (.seq .array [x, y, z]) = .ok (.seq .polygon [a - x, b - y, c - z]) ∧
    expected .add (.seq .array [x, y, z]) (.seq .polygon [a, b, c]) = some (.seq .polygon) ∧
    binop .add (.seq .array [x, y, z]) (.seq .polygon [a, b, c]) = .ok (.seq .polygon [x + a, y + b, z + c]) ∧
    ¬ Accident .sub (.seq .array [x, y, z]) (.seq .polygon [a, b, c]) ∧
    binop .sub (.seq .array [x, y, z]) (.seq .polygon [a, b, c]) = .error .typeError := by
  refine ⟨trivial, fun h => h, fun h => h rfl, rfl, rfl, rfl, rfl, fun h => ?_, rfl⟩
  have := h.2.1
  simp at this

end
end Planar
