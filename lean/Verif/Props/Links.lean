import Verif.Props.Operators
import Verif.Props.SeqMore
import Verif.Props.PyEq
/-
The models of the array operators in Model/Seq and Model/Dispatch (one function per method, used by C29 - C33) give what the
Python dispatch of Model/Operators gives; likewise the comparisons of Model/Vec2 (C07) and Python's `==` of Model/PyEq.
-/
set_option linter.unusedSectionVars false
namespace Planar
open Operand

variable {K : Type} [PyMath K] [Add K] [Sub K] [Mul K] [Div K] [Zero K] [One K] [BEq K]

theorem mapM_pure_ok {α β : Type} {g : α → Py β} {f : α → β} (h : ∀ a, g a = .ok (f a)) (l : List α) :
    l.mapM g = .ok (l.map f) := by
  induction l with
  | nil => rfl
  | cons a l ih => rw [List.mapM_cons, ih, h]; rfl

theorem mapM_zip_ok {α β γ : Type} {g : α × β → Py γ} {f : α → β → γ} (h : ∀ a b, g (a, b) = .ok (f a b)) (l : List α)
    (m : List β) : (l.zip m).mapM g = .ok (List.zipWith f l m) := by
  rw [mapM_pure_ok (f := fun ab => f ab.1 ab.2) fun ab => h ab.1 ab.2, List.zip, List.map_zipWith]

/-- An argument of an array operator as an operand. -/
def ArrArg.operand : ArrArg K → Operand K
  | .arr vs => .seq .array vs
  | .vec v => .vec v
  | .num k => .num k

/-- The method of Model/Seq. -/
def arrMethod (op : BinOp) (s : Vecs K) (o : ArrArg K) : Py (Vecs K) :=
  match op with
  | .add => Vec2Array.add s o
  | .sub => Vec2Array.sub s o
  | .mul => Vec2Array.mul s o
  | .truediv => Vec2Array.truediv s o
  | .floordiv => Vec2Array.floordiv s o

/-- The in-place method of Model/Seq: the answer and the array afterwards. -/
def arrInplace (op : BinOp) (s : Vecs K) (o : ArrArg K) : Py Unit × Vecs K :=
  match op with
  | .add => Vec2Array.iadd s o
  | .sub => Vec2Array.isub s o
  | .mul => Vec2Array.imul s o
  | .truediv => Vec2Array.itruediv s o
  | .floordiv => Vec2Array.ifloordiv s o

/-- What the array operators of the dispatch answer. -/
theorem arrOp_eq (op : BinOp) (s : Vecs K) (o : ArrArg K) (h : ∀ k, o = .num k → ¬(op = .add ∨ op = .sub)) :
    arrOp op s o.operand = (arrMethod op s o).map fun v => some (.seq .array v) := by
  cases o with
  | arr vs =>
    have e : arrOp op s (ArrArg.arr vs).operand = zipSeq op .array s vs := by
      simp only [ArrArg.operand, arrOp, arrIop, true_or, if_true]
    rw [e, zipSeq]
    cases op <;> simp only [arrMethod, Vec2Array.add, Vec2Array.sub, Vec2Array.mul, Vec2Array.truediv, Vec2Array.floordiv]
    · rw [mapM_zip_ok (g := fun ab => vecVec .add ab.1 ab.2) (f := fun a b => a + b) fun _ _ => rfl]; split <;> rfl
    · rw [mapM_zip_ok (g := fun ab => vecVec .sub ab.1 ab.2) (f := fun a b => a - b) fun _ _ => rfl]; split <;> rfl
    · rw [mapM_zip_ok (g := fun ab => vecVec .mul ab.1 ab.2) (f := fun a b => a.vmul b) fun _ _ => rfl]; split <;> rfl
    · split <;> rfl
    · split <;> rfl
  | vec v =>
    show answer _ (s.mapM fun a => vecVec op a v.copy) = _
    cases op
    · rw [mapM_pure_ok (g := fun a => vecVec .add a v.copy) (f := fun a => a + v.copy) fun _ => rfl]; rfl
    · rw [mapM_pure_ok (g := fun a => vecVec .sub a v.copy) (f := fun a => a - v.copy) fun _ => rfl]; rfl
    · rw [mapM_pure_ok (g := fun a => vecVec .mul a v.copy) (f := fun a => a.vmul v.copy) fun _ => rfl]; rfl
    · rfl
    · rfl
  | num k =>
    show (if op = .add ∨ op = .sub then notImpl else answer _ (s.mapM fun a => vecNum op a k)) = _
    rw [if_neg (h k rfl)]
    cases op
    · exact absurd (.inl rfl) (h k rfl)
    · exact absurd (.inr rfl) (h k rfl)
    · rw [mapM_pure_ok (g := fun a => vecNum .mul a k) (f := fun a => a.smul k) fun _ => rfl]; rfl
    · rfl
    · rfl

/-- **C30** `a op x` for an array `a` and an array, vector or number `x`: Python's dispatch (the method of the left operand,
then the reflected one) gives what the method gives. -/
theorem C30_dispatch (op : BinOp) (s : Vecs K) (o : ArrArg K) :
    binop op (.seq .array s) o.operand = (arrMethod op s o).map (.seq .array) := by
  by_cases h : ∀ k, o = .num k → ¬(op = .add ∨ op = .sub)
  · simp only [binop, leftMeth, arrOp_eq op s o h]
    cases arrMethod op s o <;> rfl
  · push Not at h
    obtain ⟨k, rfl, rfl | rfl⟩ := h <;> rfl

/-- What the in-place operators of the dispatch answer. -/
theorem arrIop_eq (op : BinOp) (s : Vecs K) (o : ArrArg K) : arrIop op s o.operand = arrOp op s o.operand := by
  cases o with
  | arr vs =>
    have e : arrOp op s (ArrArg.arr vs).operand = zipSeq op .array s vs := by
      simp only [ArrArg.operand, arrOp, arrIop, true_or, if_true]
    have e' : arrIop op s (ArrArg.arr vs).operand = zipSeq op .array s vs := by
      simp only [ArrArg.operand, arrOp, arrIop, true_or, if_true]
    rw [e, e']
  | vec v => rfl
  | num k => rfl

/-- The in-place methods store what the methods answer. -/
theorem arrInplace_eq (op : BinOp) (s : Vecs K) (o : ArrArg K) :
    arrInplace op s o = Vec2Array.assign s (arrMethod op s o) := by
  cases op <;> cases o <;>
    simp only [arrInplace, arrMethod, Vec2Array.add, Vec2Array.sub, Vec2Array.mul, Vec2Array.truediv, Vec2Array.floordiv,
      Vec2Array.iadd, Vec2Array.isub, Vec2Array.imul, Vec2Array.itruediv, Vec2Array.ifloordiv] <;>
    first
    | rfl
    | (split <;> rfl)

/-- **C30** `a op= x`: the array itself is changed, and holds what the in-place method leaves in it; after an exception it
holds what it held. -/
theorem C30_inplace_dispatch (op : BinOp) (s : Vecs K) (o : ArrArg K) :
    match inplace op (.seq .array s) o.operand with
    | .ok (v, b) => (arrInplace op s o).1 = .ok () ∧ v = .seq .array (arrInplace op s o).2 ∧ b = true
    | .error e => arrInplace op s o = (.error e, s) := by
  rw [arrInplace_eq]
  by_cases h : ∀ k, o = .num k → ¬(op = .add ∨ op = .sub)
  · simp only [inplace, inplaceMeth, arrIop_eq, arrOp_eq op s o h]
    cases arrMethod op s o
    · rfl
    · exact ⟨rfl, rfl, rfl⟩
  · push Not at h
    obtain ⟨k, rfl, rfl | rfl⟩ := h <;> rfl

/-- `[Vec2(0, 2), Vec2(1, 1)] + Vec2(1, 1)` and a division by zero, which leaves the array as it was. -/
example [PyMath ℚ] : binop .add (.seq .array [⟨0, 2⟩, ⟨1, 1⟩] : Operand ℚ) (.vec ⟨1, 1⟩) = .ok (.seq .array [⟨1, 3⟩, ⟨2, 2⟩]) ∧
    arrInplace .truediv ([⟨0, 2⟩, ⟨1, 1⟩] : Vecs ℚ) (.vec ⟨1, 0⟩) = (.error .zeroDivisionError, [⟨0, 2⟩, ⟨1, 1⟩]) := by
  constructor
  · rw [show (.vec ⟨1, 1⟩ : Operand ℚ) = (ArrArg.vec ⟨1, 1⟩).operand from rfl, C30_dispatch]; simp [arrMethod, Vec2Array.add, Except.map, Vec2.copy, Vec2.mk', Vec2.ext_iff]; norm_num
  · have h : (Vec2.vdiv ⟨0, 2⟩ (Vec2.copy ⟨1, 0⟩) : Py (Vec2 ℚ)) = .error .zeroDivisionError := by
      simp [Vec2.vdiv, pydiv, Vec2.copy, Vec2.mk', bind, Except.bind]
    simp only [arrInplace, Vec2Array.itruediv, List.mapM_cons, h]; rfl

/-- The value of an operator of Model/Dispatch. -/
def OpResult.value : OpResult K → Value K
  | .arr vs => .seq .array vs
  | .nested v => .nested v

/-- **C32** `v + a`, `a + v`, `v * a` and `a * v` as used in C32 are what Python's dispatch gives. -/
theorem C32_dispatch (v : Vec2 K) (a : Vecs K) :
    binop .add (.vec v) (.seq .array a) = (vecAddArr v a).map OpResult.value ∧
    binop .add (.seq .array a) (.vec v) = (arrAddVec a v).map OpResult.value ∧
    binop .mul (.vec v) (.seq .array a) = (vecMulArr v a).map OpResult.value ∧
    binop .mul (.seq .array a) (.vec v) = (arrMulVec a v).map OpResult.value := by
  have ha : arrOp .add a (.vec v) = .ok (some (.seq .array (a.map fun w => w + v.copy))) :=
    arrOp_eq .add a (.vec v) (by rintro k ⟨⟩)
  have hm : arrOp .mul a (.vec v) = .ok (some (.seq .array (a.map fun w => w.vmul v.copy))) :=
    arrOp_eq .mul a (.vec v) (by rintro k ⟨⟩)
  have ra : rightMeth .add (.vec v) (.seq .array a) = arrOp .add a (.vec v) := rfl
  have rm : rightMeth .mul (.vec v) (.seq .array a) = arrOp .mul a (.vec v) := rfl
  refine ⟨?_, C30_dispatch .add a (.vec v), ?_, C30_dispatch .mul a (.vec v)⟩
  · rcases a with _ | ⟨p, _ | ⟨q, _ | ⟨r, a⟩⟩⟩
    · simp only [binop, ra, ha]; rfl
    · simp only [binop, ra, ha]; rfl
    · rfl
    · simp only [binop, ra, ha]; rfl
  · rcases a with _ | ⟨p, _ | ⟨q, _ | ⟨r, a⟩⟩⟩
    · simp only [binop, rm, hm]; rfl
    · simp only [binop, rm, hm]; rfl
    · rfl
    · simp only [binop, rm, hm]; rfl

example : (vecMulArr ⟨2, 3⟩ [⟨1, 0⟩, ⟨1, 1⟩, ⟨0, 1⟩] : Py (OpResult ℚ)) = .ok (.arr [⟨2, 0⟩, ⟨2, 3⟩, ⟨0, 3⟩]) := by
  simp [vecMulArr, Vec2Array.mul, Vec2.vmul, Vec2.copy, Vec2.mk']

/-- **C07** the comparison of a vector with a tuple or list of numbers is what Python's `==` and `!=` give, for both orders
of the operands. -/
theorem C07_dispatch (v : Vec2 K) (ks : List K) :
    Obj.eq (.vec v) (.tuple (ks.map .num)) = .ok (v.eqSeq ks) ∧ Obj.ne (.vec v) (.tuple (ks.map .num)) = .ok (v.neSeq ks) ∧
    Obj.eq (.tuple (ks.map .num)) (.vec v) = .ok (v.eqSeq ks) ∧ Obj.ne (.tuple (ks.map .num)) (.vec v) = .ok (v.neSeq ks) ∧
    Obj.eq (.vec v) (.list (ks.map .num)) = .ok (v.eqSeq ks) ∧ Obj.ne (.vec v) (.list (ks.map .num)) = .ok (v.neSeq ks) ∧
    Obj.eq (.list (ks.map .num)) (.vec v) = .ok (v.eqSeq ks) ∧ Obj.ne (.list (ks.map .num)) (.vec v) = .ok (v.neSeq ks) := by
  have key : ∀ o : Obj K, (∀ i, o.item i = Obj.itemOf (ks.map .num) i) → o.len = .ok ks.length →
      Obj.vecEq v o = .ok (v.eqSeq ks) ∧ Obj.vecNe v o = .ok (v.neSeq ks) := by
    intro o hi hl
    have h0 := hi 0
    have h1 := hi 1
    rcases ks with _ | ⟨a, _ | ⟨b, ks⟩⟩
    · simp only [Obj.vecEq, Obj.vecNe, Obj.vecEqTry, Obj.vecNeTry, h0]; exact ⟨rfl, rfl⟩
    · have e0 : o.item 0 = .ok (some a) := h0
      have e1 : o.item 1 = .error .indexError := h1
      simp only [Obj.vecEq, Obj.vecNe, Obj.vecEqTry, Obj.vecNeTry, e0, e1, bind, Except.bind, Obj.numEq, Vec2.eqSeq, Vec2.neSeq,
        bne]
      by_cases h : (v.x == a) = true <;> simp only [h] <;> exact ⟨rfl, rfl⟩
    · have e0 : o.item 0 = .ok (some a) := h0
      have e1 : o.item 1 = .ok (some b) := h1
      simp only [Obj.vecEq, Obj.vecNe, Obj.vecEqTry, Obj.vecNeTry, e0, e1, hl, bind, Except.bind, Obj.numEq, Vec2.eqSeq,
        Vec2.neSeq, bne]
      cases v.x == a <;> cases v.y == b <;> exact ⟨rfl, rfl⟩
  have ht := key (.tuple (ks.map .num)) (fun _ => rfl) (by simp [Obj.len])
  have hl := key (.list (ks.map .num)) (fun _ => rfl) (by simp [Obj.len])
  simp only [Obj.eq, Obj.ne]
  exact ⟨ht.1, ht.2, ht.1, ht.2, hl.1, hl.2, hl.1, hl.2⟩

example : (Vec2.mk 1 2 : Vec2 ℚ).eqSeq [1, 2] = true ∧ (Vec2.mk 1 2 : Vec2 ℚ).neSeq [1, 2, 3] = true := by decide +kernel

end Planar
