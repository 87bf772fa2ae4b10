import Verif.Props.PolyEq
import Verif.Spec.PyEq
/- Property C73: equality and hashing between objects of all classes. -/
set_option linter.unusedSectionVars false
namespace Planar
open Spec
namespace Obj

section
variable {K : Type} [LinearOrder K] [Add K] [Sub K] [Mul K] [Div K] [Neg K] [Zero K] [One K] [RoundedArith K] [PyMath K]

theorem numEq_none (k : K) : numEq k none = false := rfl

theorem beq_comm' {α : Type} [BEq α] [LawfulBEq α] (a b : α) : (a == b) = (b == a) := BEq.comm

/-- A vector is not equal to an object whose first item is not a number or missing. -/
theorem vecEq_of_item {v : Vec2 K} {o : Obj K}
    (h : o.item 0 = .ok none ∨ o.item 0 = .error .indexError ∨ o.item 0 = .error .typeError) : vecEq v o = .ok false := by
  unfold vecEq vecEqTry
  rcases h with h | h | h <;> rw [h] <;> rfl

theorem vecEq_seq (v : Vec2 K) (c : SeqCls) (vs : List (Vec2 K)) : vecEq v (.seq c vs) = .ok false := by
  apply vecEq_of_item
  cases vs with
  | nil => right; left; rfl
  | cons a l => left; rfl

theorem vecEq_vec (v w : Vec2 K) : vecEq v (.vec w) = .ok (v.x == w.x && v.y == w.y) := by
  simp only [vecEq, vecEqTry, item, itemOf, List.getElem?_cons_zero, List.getElem?_cons_succ, asNum, numEq, len, bind,
    Except.bind, pure, Except.pure]
  by_cases h1 : v.x = w.x <;> by_cases h2 : v.y = w.y <;> simp [h1, h2, catching]

theorem vecEq_affine (v : Vec2 K) (T : Affine K) : vecEq v (.affine T) = .ok false := by
  simp only [vecEq, vecEqTry, item, itemOf, affineItems, List.getElem?_cons_zero, List.getElem?_cons_succ, asNum, numEq, len,
    bind, Except.bind, pure, Except.pure]
  by_cases h1 : v.x = T.a <;> by_cases h2 : v.y = T.b <;> simp [h1, h2, catching]

/-- A vector and a tuple or list. -/
theorem vecEq_items (v : Vec2 K) (l : List (Obj K)) (o : Obj K) (ho : o = .tuple l ∨ o = .list l) :
    vecEq v o = .ok (numsEq [v.x, v.y] l) := by
  have hi : ∀ i, o.item i = itemOf l i := by intro i; rcases ho with rfl | rfl <;> rfl
  have hl : o.len = .ok l.length := by rcases ho with rfl | rfl <;> rfl
  simp only [vecEq, vecEqTry, hi, hl]
  rcases l with _ | ⟨a, _ | ⟨b, l⟩⟩
  · rfl
  · simp only [itemOf, List.getElem?_cons_zero, List.getElem?_cons_succ, List.getElem?_nil, bind, Except.bind, pure,
      Except.pure, numsEq]
    cases numEq v.x a.asNum <;> rfl
  · simp only [itemOf, List.getElem?_cons_zero, List.getElem?_cons_succ, bind, Except.bind, pure,
      Except.pure, numsEq]
    cases numEq v.x a.asNum <;> cases numEq v.y b.asNum <;> cases l <;> rfl

theorem numsEq_nums (ks ms : List K) : numsEq ks (ms.map .num) = (ks == ms) := by
  induction ks generalizing ms with
  | nil => cases ms <;> rfl
  | cons k ks ih =>
    cases ms with
    | nil => rfl
    | cons m ms => simp only [List.map_cons, numsEq, asNum, numEq, ih, List.cons_beq_cons]

theorem affineItems_eq (T : Affine K) : affineItems T = (affineNums T).map .num := rfl

mutual
theorem eq_symm : (a b : Obj K) → eq a b = eq b a
  | .vec v, b => by
    cases b
    case vec w => simp only [eq, vecEq_vec]; rw [beq_comm' v.x, beq_comm' v.y]
    case affine T =>
      simp only [eq, vecEq_affine]
      rw [show ([.num v.x, .num v.y] : List (Obj K)) = [v.x, v.y].map .num from rfl, numsEq_nums]
      simp [affineNums]
    case seq c vs => simp only [eq, vecEq_seq]
    case num k => simp only [eq]
    case tuple l => simp only [eq]
    case list l => simp only [eq]
    case foreign i a b n => simp only [eq]
    all_goals simp only [eq]; exact vecEq_of_item (Or.inr (Or.inr rfl))
  | .tuple l, b => by
    cases b <;> simp only [eq]
    exact eqItems_symm l _
  | .list l, b => by
    cases b <;> simp only [eq]
    rename_i m
    rw [eqItems_symm l m]
    by_cases h : l.length = m.length
    · rw [if_pos h, if_pos h.symm]
    · rw [if_neg h, if_neg (fun e => h e.symm)]
  | .affine T, b => by
    cases b <;> simp only [eq]
    case vec v =>
      simp only [vecEq_affine]
      rw [show ([.num v.x, .num v.y] : List (Obj K)) = [v.x, v.y].map .num from rfl, numsEq_nums]
      simp [affineNums]
    case affine U =>
      rw [affineItems_eq, affineItems_eq, numsEq_nums, numsEq_nums, beq_comm']
  | .num k, b => by
    cases b <;> simp only [eq]
    rw [beq_comm']
  | .seq c vs, b => by
    cases b <;> simp only [eq]
    case vec v => rw [vecEq_seq]
    case seq d ws =>
      congr 1
      by_cases h : c = d
      · subst h
        simp only [decide_true, Bool.true_and]
        split_ifs
        · rw [Bool.eq_iff_iff]
          exact ⟨(C55_equivalence _ _ (Polygon.fromPoints vs)).2.1, (C55_equivalence _ _ (Polygon.fromPoints vs)).2.1⟩
        · exact beq_comm' _ _
      · have h' : ¬ d = c := fun e => h e.symm
        simp [h, h']
  | .box p, b => by
    cases b <;> simp only [eq]
    case vec v => exact (vecEq_of_item (Or.inr (Or.inr rfl))).symm
    case box c =>
      change Except.ok ((p.min == c.min) && (p.max == c.max)) = Except.ok ((c.min == p.min) && (c.max == p.max))
      rw [beq_comm' p.min, beq_comm' p.max]
  | .line p, b => by
    cases b <;> simp only [eq]
    case vec v => exact (vecEq_of_item (Or.inr (Or.inr rfl))).symm
    case line c =>
      change Except.ok ((p.offset == c.offset) && (p.direction == c.direction)) =
        Except.ok ((c.offset == p.offset) && (c.direction == p.direction))
      rw [beq_comm' p.offset, beq_comm' p.direction]
  | .ray p, b => by
    cases b <;> simp only [eq]
    case vec v => exact (vecEq_of_item (Or.inr (Or.inr rfl))).symm
    case ray c =>
      change Except.ok ((p.anchor == c.anchor) && (p.direction == c.direction)) =
        Except.ok ((c.anchor == p.anchor) && (c.direction == p.direction))
      rw [beq_comm' p.anchor, beq_comm' p.direction]
  | .segment p, b => by
    cases b <;> simp only [eq]
    case vec v => exact (vecEq_of_item (Or.inr (Or.inr rfl))).symm
    case segment c =>
      change Except.ok ((p.anchor == c.anchor) && (p.vector == c.vector)) =
        Except.ok ((c.anchor == p.anchor) && (c.vector == p.vector))
      rw [beq_comm' p.anchor, beq_comm' p.vector]
  | .foreign i x y n, b => by
    cases b <;> simp only [eq]
    rw [beq_comm']
theorem eqItems_symm : (l m : List (Obj K)) → eqItems l m = eqItems m l
  | [], m => by cases m <;> simp [eqItems]
  | a :: l, m => by
    cases m with
    | nil => simp [eqItems]
    | cons b m =>
      simp only [eqItems]
      rw [eq_symm a b]
      rcases eq b a with e | _ | _
      · rfl
      · rfl
      · exact eqItems_symm l m
end

/-- **C73** `a == b` and `b == a` give the same answer (or the same exception), whatever the classes of `a` and `b`. -/
theorem C73_symmetric (a b : Obj K) : eq a b = eq b a := eq_symm a b

mutual
theorem eq_refl' : (a : Obj K) → eq a a = .ok true
  | .vec v => by simp [eq, vecEq_vec]
  | .tuple l => by simp only [eq]; exact eqItems_refl l
  | .list l => by simp only [eq, if_true]; exact eqItems_refl l
  | .affine T => by simp only [eq]; rw [affineItems_eq, numsEq_nums, beq_self_eq_true]
  | .num k => by simp [eq]
  | .seq c vs => by
    simp only [eq, decide_true, Bool.true_and]
    split_ifs
    · rw [(C55_equivalence (Polygon.fromPoints vs) (Polygon.fromPoints vs) (Polygon.fromPoints vs)).1]
    · simp
  | .box p => by
    simp only [eq]
    change Except.ok ((p.min == p.min) && (p.max == p.max)) = _
    simp
  | .line p => by
    simp only [eq]
    change Except.ok ((p.offset == p.offset) && (p.direction == p.direction)) = _
    simp
  | .ray p => by
    simp only [eq]
    change Except.ok ((p.anchor == p.anchor) && (p.direction == p.direction)) = _
    simp
  | .segment p => by
    simp only [eq]
    change Except.ok ((p.anchor == p.anchor) && (p.vector == p.vector)) = _
    simp
  | .foreign i x y n => by simp [eq]
theorem eqItems_refl : (l : List (Obj K)) → eqItems l l = .ok true
  | [] => rfl
  | a :: l => by simp only [eqItems, eq_refl' a]; exact eqItems_refl l
end

/-- **C73** every object equals itself. -/
theorem C73_reflexive (a : Obj K) : eq a a = .ok true := eq_refl' a

theorem vecNe_eq (v : Vec2 K) (o : Obj K) : vecNe v o = (vecEq v o).map not := by
  unfold vecNe vecEq vecNeTry vecEqTry
  rcases o.item 0 with e | a
  · cases e <;> rfl
  · simp only [bind, Except.bind, pure, Except.pure]
    by_cases h1 : numEq v.x a = true
    · simp only [h1, if_true, Bool.not_true, Bool.false_eq_true, if_false]
      rcases o.item 1 with e | b
      · cases e <;> rfl
      · simp only
        by_cases h2 : numEq v.y b = true
        · simp only [h2, if_true, Bool.not_true, Bool.false_eq_true, if_false]
          rcases o.len with e | n
          · cases e <;> rfl
          · rfl
        · simp only [Bool.not_eq_true] at h2
          simp only [h2, Bool.false_eq_true, if_false, Bool.not_false, if_true]; rfl
    · simp only [Bool.not_eq_true] at h1
      simp only [h1, Bool.false_eq_true, if_false, Bool.not_false, if_true]; rfl

/-- **C73** `a != b` is the negation of `a == b`, and raises exactly when that does. -/
theorem C73_ne (a b : Obj K) : ne a b = (eq a b).map not := by
  cases a <;> cases b <;> first | rfl | (simp only [ne, eq, vecNe_eq])

/-! ### exceptions -/

theorem catching_ok {d : Bool} {r : Except ItemErr Bool} (h : r ≠ .error .keyError) : ∃ b, catching d r = .ok b := by
  rcases r with e | b
  · cases e
    · exact ⟨d, rfl⟩
    · exact ⟨d, rfl⟩
    · exact absurd rfl h
  · exact ⟨b, rfl⟩

theorem itemOf_ne (l : List (Obj K)) (i : Nat) : itemOf l i ≠ .error .keyError := by
  unfold itemOf
  cases l[i]? <;> simp

theorem tame_item {o : Obj K} (h : Tame o) (i : Nat) : o.item i ≠ .error .keyError := by
  cases h
  case foreign a b n h1 h2 h3 => simp only [item]; split_ifs <;> assumption
  all_goals first | exact itemOf_ne _ _ | simp [item]

theorem tame_len {o : Obj K} (h : Tame o) : o.len ≠ .error .keyError := by
  cases h
  case foreign a b n h1 h2 h3 => exact h3
  all_goals simp [len]

theorem tame_vecEq (v : Vec2 K) {o : Obj K} (h : Tame o) : ∃ r, vecEq v o = .ok r := by
  apply catching_ok
  unfold vecEqTry
  have h0 := tame_item h 0
  have h1 := tame_item h 1
  have h2 := tame_len h
  generalize o.item 0 = i0 at *
  generalize o.item 1 = i1 at *
  generalize o.len = n at *
  rcases i0 with e | a
  · simpa [bind, Except.bind] using h0
  · simp only [bind, Except.bind, pure, Except.pure]
    split_ifs
    · rcases i1 with e | b
      · simpa using h1
      · simp only
        split_ifs
        · rcases n with e | n
          · simpa using h2
          · simp
        · simp
    · simp

mutual
theorem tame_eq : (a b : Obj K) → Tame a → Tame b → ∃ r, eq a b = .ok r
  | .vec v, b, _, hb => by simp only [eq]; exact tame_vecEq v hb
  | .tuple l, b, ha, hb => by
    cases b <;> simp only [eq] <;> try exact ⟨_, rfl⟩
    case vec v => exact tame_vecEq v ha
    case tuple m =>
      cases ha with | tuple _ ha =>
      cases hb with | tuple _ hb =>
      exact tame_eqItems l m ha hb
  | .list l, b, ha, hb => by
    cases b <;> simp only [eq] <;> try exact ⟨_, rfl⟩
    case vec v => exact tame_vecEq v ha
    case list m =>
      cases ha with | list _ ha =>
      cases hb with | list _ hb =>
      split_ifs
      · exact tame_eqItems l m ha hb
      · exact ⟨_, rfl⟩
  | .affine T, b, _, _ => by cases b <;> simp only [eq] <;> exact ⟨_, rfl⟩
  | .num k, b, ha, _ => by
    cases b <;> simp only [eq] <;> first | exact ⟨_, rfl⟩ | exact tame_vecEq _ ha
  | .seq c vs, b, _, _ => by cases b <;> simp only [eq] <;> exact ⟨_, rfl⟩
  | .box p, b, _, _ => by cases b <;> simp only [eq] <;> exact ⟨_, rfl⟩
  | .line p, b, _, _ => by cases b <;> simp only [eq] <;> exact ⟨_, rfl⟩
  | .ray p, b, _, _ => by cases b <;> simp only [eq] <;> exact ⟨_, rfl⟩
  | .segment p, b, _, _ => by cases b <;> simp only [eq] <;> exact ⟨_, rfl⟩
  | .foreign i x y n, b, ha, _ => by
    cases b <;> simp only [eq] <;> try exact ⟨_, rfl⟩
    exact tame_vecEq _ ha
theorem tame_eqItems : (l m : List (Obj K)) → (∀ o ∈ l, Tame o) → (∀ o ∈ m, Tame o) → ∃ r, eqItems l m = .ok r
  | [], m, _, _ => ⟨_, rfl⟩
  | a :: l, [], _, _ => ⟨false, by simp [eqItems]⟩
  | a :: l, b :: m, ha, hb => by
    simp only [eqItems]
    obtain ⟨r, hr⟩ := tame_eq a b (ha a (by simp)) (hb b (by simp))
    rw [hr]
    cases r
    · exact ⟨_, rfl⟩
    · exact tame_eqItems l m (fun o ho => ha o (by simp [ho])) (fun o ho => hb o (by simp [ho]))
end

/-- **C73** comparing never raises. (Partial: unless an object raises KeyError when asked for an item, as a dict does;
`C73_raises_violated`.) -/
theorem C73_no_raise_partial (a b : Obj K) (ha : Tame a) (hb : Tame b) : ∃ r, eq a b = .ok r ∧ ne a b = .ok (!r) := by
  obtain ⟨r, hr⟩ := tame_eq a b ha hb
  exact ⟨r, hr, by rw [C73_ne, hr]; rfl⟩

/-- **C73** (violation) comparing a vector with a dict without the key 0, for instance `Vec2(1, 2) == {}`, raises
KeyError, on either side. -/
theorem C73_raises_violated (v : Vec2 K) (id : Nat) (b : Except ItemErr (Option K)) (n : Except ItemErr Nat) :
    eq (.vec v) (.foreign id (.error .keyError) b n) = .error .keyError ∧
    eq (.foreign id (.error .keyError) b n) (.vec v) = .error .keyError := ⟨rfl, by simp [eq]; rfl⟩

/-! ### keys -/

/-- What `==` sees of a key. -/
inductive Key (K : Type) where
  | num (k : K)
  | tuple (l : List (Key K))

mutual
def nf : Obj K → Option (Key K)
  | .num k => some (.num k)
  | .vec v => some (.tuple [.num v.x, .num v.y])
  | .affine T => some (.tuple ((affineNums T).map .num))
  | .tuple l => (nfs l).map .tuple
  | _ => none
def nfs : List (Obj K) → Option (List (Key K))
  | [] => some []
  | o :: l => match nf o, nfs l with
    | some h, some hs => some (h :: hs)
    | _, _ => none
end

mutual
def keyHash (H : Hashing K) : Key K → Int
  | .num k => H.num k
  | .tuple l => H.tuple (keyHashes H l)
def keyHashes (H : Hashing K) : List (Key K) → List Int
  | [] => []
  | k :: l => keyHash H k :: keyHashes H l
end

theorem keyHashes_nums (H : Hashing K) (l : List K) : keyHashes H (l.map .num) = l.map H.num := by
  induction l with
  | nil => rfl
  | cons k l ih => simp only [List.map_cons, keyHashes, keyHash, ih]

theorem nfs_cons {o : Obj K} {l : List (Obj K)} {x : List (Key K)} (h : nfs (o :: l) = some x) :
    ∃ k ks, nf o = some k ∧ nfs l = some ks ∧ x = k :: ks := by
  simp only [nfs] at h
  rcases h1 : nf o with _ | k
  · rw [h1] at h; cases h
  · rcases h2 : nfs l with _ | ks
    · rw [h1, h2] at h; cases h
    · rw [h1, h2] at h; exact ⟨k, ks, rfl, rfl, (Option.some.inj h).symm⟩

mutual
theorem hash_nf (H : Hashing K) : (a : Obj K) → (x : Key K) → nf a = some x → hash H a = some (keyHash H x)
  | .num k, x, h => by simp only [nf, Option.some.injEq] at h; subst h; rfl
  | .vec v, x, h => by simp only [nf, Option.some.injEq] at h; subst h; rfl
  | .affine T, x, h => by
    simp only [nf, Option.some.injEq] at h; subst h
    simp only [hash, keyHash, keyHashes_nums]
  | .tuple l, x, h => by
    simp only [nf] at h
    obtain ⟨ks, h1, rfl⟩ := Option.map_eq_some_iff.mp h
    simp only [hash, hashes_nf H l ks h1, Option.map_some, keyHash]
  | .list l, x, h => by cases h
  | .seq c vs, x, h => by cases h
  | .box p, x, h => by cases h
  | .line p, x, h => by cases h
  | .ray p, x, h => by cases h
  | .segment p, x, h => by cases h
  | .foreign .., x, h => by cases h
theorem hashes_nf (H : Hashing K) : (l : List (Obj K)) → (x : List (Key K)) → nfs l = some x →
    hashes H l = some (keyHashes H x)
  | [], x, h => by simp only [nfs, Option.some.injEq] at h; subst h; rfl
  | a :: l, x, h => by
    obtain ⟨k, ks, h1, h2, rfl⟩ := nfs_cons h
    simp only [hashes, hash_nf H a k h1, hashes_nf H l ks h2, keyHashes]
end

theorem numsEq_iff : (ks : List K) → (l : List (Obj K)) → (x : List (Key K)) → nfs l = some x →
    (numsEq ks l = true ↔ ks.map Key.num = x)
  | [], [], x, h => by simp only [nfs, Option.some.injEq] at h; subst h; simp [numsEq]
  | [], o :: l, x, h => by obtain ⟨k, ks, h1, h2, rfl⟩ := nfs_cons h; simp [numsEq]
  | m :: ms, [], x, h => by simp only [nfs, Option.some.injEq] at h; subst h; simp [numsEq]
  | m :: ms, o :: l, x, h => by
    obtain ⟨k, ks, h1, h2, rfl⟩ := nfs_cons h
    simp only [numsEq, Bool.and_eq_true, numsEq_iff ms l ks h2, List.map_cons, List.cons.injEq]
    refine and_congr_left fun _ => ?_
    cases o <;> simp only [nf, Option.some.injEq, Option.map_eq_some_iff, reduceCtorEq] at h1
    case num n => subst h1; simp [asNum, numEq]
    case vec v => subst h1; simp [asNum, numEq]
    case affine T => subst h1; simp [asNum, numEq]
    case tuple l' => obtain ⟨a, -, rfl⟩ := h1; simp [asNum, numEq]

theorem map_num_inj {k m : List K} : k.map Key.num = m.map Key.num ↔ k = m :=
  ⟨fun h => List.map_injective_iff.mpr (fun a b e => by cases e; rfl) h, fun h => by rw [h]⟩

mutual
theorem eq_nf : (a b : Obj K) → (x y : Key K) → nf a = some x → nf b = some y → (eq a b = .ok true ↔ x = y)
  | .num k, b, x, y, ha, hb => by
    simp only [nf, Option.some.injEq] at ha; subst ha
    cases b <;> simp only [nf, Option.some.injEq, Option.map_eq_some_iff, reduceCtorEq] at hb
    case num m => subst hb; simp [eq]
    case vec v => subst hb; simp only [eq]; rw [vecEq_of_item (Or.inr (Or.inr rfl))]; simp
    case affine T => subst hb; simp [eq]
    case tuple l => obtain ⟨a, -, rfl⟩ := hb; simp [eq]
  | .vec v, b, x, y, ha, hb => by
    simp only [nf, Option.some.injEq] at ha; subst ha
    cases b <;> simp only [nf, Option.some.injEq, Option.map_eq_some_iff, reduceCtorEq] at hb
    case num m => subst hb; simp only [eq]; rw [vecEq_of_item (Or.inr (Or.inr rfl))]; simp
    case vec w => subst hb; simp [eq, vecEq_vec]
    case affine T => subst hb; simp [eq, vecEq_affine, affineNums]
    case tuple l =>
      obtain ⟨ks, h1, rfl⟩ := hb
      simp only [eq, vecEq_items v l _ (Or.inl rfl), Except.ok.injEq, numsEq_iff _ l ks h1, Key.tuple.injEq, List.map_cons,
        List.map_nil]
  | .affine T, b, x, y, ha, hb => by
    simp only [nf, Option.some.injEq] at ha; subst ha
    cases b <;> simp only [nf, Option.some.injEq, Option.map_eq_some_iff, reduceCtorEq] at hb
    case num m => subst hb; simp [eq]
    case vec v =>
      subst hb; simp only [eq]
      rw [show ([.num v.x, .num v.y] : List (Obj K)) = [v.x, v.y].map .num from rfl, numsEq_nums]
      simp [affineNums]
    case affine U =>
      subst hb; simp only [eq]
      rw [affineItems_eq, numsEq_nums, Except.ok.injEq, beq_iff_eq, Key.tuple.injEq, map_num_inj]
    case tuple l =>
      obtain ⟨ks, h1, rfl⟩ := hb
      simp only [eq, Except.ok.injEq, numsEq_iff _ l ks h1, Key.tuple.injEq]
  | .tuple l, b, x, y, ha, hb => by
    simp only [nf, Option.map_eq_some_iff] at ha
    obtain ⟨ls, h0, rfl⟩ := ha
    cases b <;> simp only [nf, Option.some.injEq, Option.map_eq_some_iff, reduceCtorEq] at hb
    case num m => subst hb; simp [eq]
    case vec w =>
      subst hb
      simp only [eq, vecEq_items w l _ (Or.inl rfl), Except.ok.injEq, numsEq_iff _ l ls h0, Key.tuple.injEq, List.map_cons,
        List.map_nil]
      exact eq_comm
    case affine T =>
      subst hb
      simp only [eq, Except.ok.injEq, numsEq_iff _ l ls h0, Key.tuple.injEq]
      exact eq_comm
    case tuple m =>
      obtain ⟨ks, h1, rfl⟩ := hb
      simp only [eq, Key.tuple.injEq]
      exact eqItems_nf l m ls ks h0 h1
  | .list l, b, x, y, ha, hb => by cases ha
  | .seq c vs, b, x, y, ha, hb => by cases ha
  | .box p, b, x, y, ha, hb => by cases ha
  | .line p, b, x, y, ha, hb => by cases ha
  | .ray p, b, x, y, ha, hb => by cases ha
  | .segment p, b, x, y, ha, hb => by cases ha
  | .foreign .., b, x, y, ha, hb => by cases ha
theorem eqItems_nf : (l m : List (Obj K)) → (x y : List (Key K)) → nfs l = some x → nfs m = some y →
    (eqItems l m = .ok true ↔ x = y)
  | [], m, x, y, ha, hb => by
    simp only [nfs, Option.some.injEq] at ha; subst ha
    cases m with
    | nil => simp only [nfs, Option.some.injEq] at hb; subst hb; simp [eqItems]
    | cons b m => obtain ⟨k, ks, h1, h2, rfl⟩ := nfs_cons hb; simp [eqItems]
  | a :: l, [], x, y, ha, hb => by
    obtain ⟨k, ks, h1, h2, rfl⟩ := nfs_cons ha
    simp only [nfs, Option.some.injEq] at hb; subst hb; simp [eqItems]
  | a :: l, b :: m, x, y, ha, hb => by
    obtain ⟨k, ks, h1, h2, rfl⟩ := nfs_cons ha
    obtain ⟨k', ks', h1', h2', rfl⟩ := nfs_cons hb
    have e1 := eq_nf a b k k' h1 h1'
    have e2 := eqItems_nf l m ks ks' h2 h2'
    simp only [eqItems, List.cons.injEq, ← e1, ← e2]
    rcases eq a b with e | _ | _ <;> simp
end

theorem keyable_nf {a : Obj K} (h : Keyable a) : ∃ x, nf a = some x := by
  induction h with
  | num k => exact ⟨_, rfl⟩
  | vec v => exact ⟨_, rfl⟩
  | affine T => exact ⟨_, rfl⟩
  | tuple l _ ih =>
    have : ∀ m : List (Obj K), (∀ o ∈ m, ∃ x, nf o = some x) → ∃ ks, nfs m = some ks := by
      intro m
      induction m with
      | nil => intro _; exact ⟨_, rfl⟩
      | cons o m ihm =>
        intro hm
        obtain ⟨k, hk⟩ := hm o (by simp)
        obtain ⟨ks, hks⟩ := ihm fun o ho => hm o (by simp [ho])
        exact ⟨k :: ks, by simp only [nfs, hk, hks]⟩
    obtain ⟨ks, hks⟩ := this l ih
    exact ⟨.tuple ks, by simp only [nf, hks, Option.map_some]⟩

/-- **C73** vectors, transforms, numbers and tuples of such can be hashed, equal ones have equal hashes, and among them
`==` is transitive: they can be exchanged for one another as keys of dicts and members of sets. (Partial: not so for
foreign objects, `C73_hash_violated`, and not transitive through lists, `C73_transitive_violated`.) -/
theorem C73_hash_partial (H : Hashing K) (a b c : Obj K) (ha : Keyable a) (hb : Keyable b) (hc : Keyable c) :
    (∃ h, hash H a = some h) ∧ (eq a b = .ok true → hash H a = hash H b) ∧
    (eq a b = .ok true → eq b c = .ok true → eq a c = .ok true) := by
  obtain ⟨x, hx⟩ := keyable_nf ha
  obtain ⟨y, hy⟩ := keyable_nf hb
  obtain ⟨z, hz⟩ := keyable_nf hc
  refine ⟨⟨_, hash_nf H a x hx⟩, fun h => ?_, fun h1 h2 => ?_⟩
  · rw [hash_nf H a x hx, hash_nf H b y hy, (eq_nf a b x y hx hy).mp h]
  · rw [eq_nf a c x z hx hz, (eq_nf a b x y hx hy).mp h1, (eq_nf b c y z hy hz).mp h2]

theorem sameKey_iff (H : Hashing K) {a b : Obj K} {x y : Key K} (hx : nf a = some x) (hy : nf b = some y) :
    sameKey H a b = true ↔ x = y := by
  unfold sameKey
  rw [hash_nf H a x hx, hash_nf H b y hy, Bool.and_eq_true]
  constructor
  · rintro ⟨-, h⟩
    rcases he : eq a b with e | r
    · rw [he] at h; cases h
    · rw [he] at h
      simp only at h
      rw [h] at he
      exact (eq_nf a b x y hx hy).mp he
  · intro h
    refine ⟨by rw [h]; simp, ?_⟩
    rw [(eq_nf a b x y hx hy).mpr h]

/-- **C73** a dict with such keys finds under `b` what was last stored under a key equal to `b`. -/
theorem C73_dict {V : Type} (H : Hashing K) (d : Dict K V) (a b : Obj K) (v : V) (hd : ∀ e ∈ d, Keyable e.1)
    (ha : Keyable a) (hb : Keyable b) :
    (eq a b = .ok true → (d.set H a v).get H b = some v) ∧
    (eq a b ≠ .ok true → (d.set H a v).get H b = d.get H b) ∧ ∀ e ∈ d.set H a v, Keyable e.1 := by
  obtain ⟨x, hx⟩ := keyable_nf ha
  obtain ⟨y, hy⟩ := keyable_nf hb
  induction d with
  | nil =>
    refine ⟨fun h => ?_, fun h => ?_, fun e he => ?_⟩
    · have := (sameKey_iff H hx hy).mpr ((eq_nf a b x y hx hy).mp h)
      simp [Dict.set, Dict.get, this]
    · have : sameKey H a b = false := by
        rw [Bool.eq_false_iff]; intro hs
        exact h ((eq_nf a b x y hx hy).mpr ((sameKey_iff H hx hy).mp hs))
      simp [Dict.set, Dict.get, this]
    · simp only [Dict.set, List.mem_singleton] at he; subst he; exact ha
  | cons e d ih =>
    obtain ⟨i1, i2, i3⟩ := ih fun e he => hd e (by simp [he])
    obtain ⟨k, hk⟩ := keyable_nf (hd e (by simp))
    by_cases hs : sameKey H e.1 a = true
    · have hka := (sameKey_iff H hk hx).mp hs
      simp only [Dict.set, hs, if_true]
      refine ⟨fun h => ?_, fun h => ?_, fun e' he' => ?_⟩
      · have : sameKey H e.1 b = true := (sameKey_iff H hk hy).mpr (hka.trans ((eq_nf a b x y hx hy).mp h))
        simp [Dict.get, this]
      · have : sameKey H e.1 b = false := by
          rw [Bool.eq_false_iff]; intro hb'
          exact h ((eq_nf a b x y hx hy).mpr (hka.symm.trans ((sameKey_iff H hk hy).mp hb')))
        simp [Dict.get, this]
      · rcases List.mem_cons.mp he' with rfl | he'
        · exact hd e (by simp)
        · exact hd e' (by simp [he'])
    · simp only [Bool.not_eq_true] at hs
      simp only [Dict.set, hs, Bool.false_eq_true, if_false]
      have hg : ∀ d' : Dict K V, Dict.get H (e :: d') b = if sameKey H e.1 b = true then some e.2 else d'.get H b := by
        intro d'
        unfold Dict.get
        rw [List.find?_cons]
        by_cases hb' : sameKey H e.1 b = true
        · simp [hb']
        · simp [hb']
      refine ⟨fun h => ?_, fun h => ?_, fun e' he' => ?_⟩
      · rw [hg, if_neg, i1 h]
        intro hb'
        have : sameKey H e.1 a = true :=
          (sameKey_iff H hk hx).mpr (((sameKey_iff H hk hy).mp hb').trans ((eq_nf a b x y hx hy).mp h).symm)
        rw [hs] at this; cases this
      · rw [hg, hg, i2 h]
      · rcases List.mem_cons.mp he' with rfl | he'
        · exact hd _ (by simp)
        · exact i3 e' he'

/-- **C73** (violation) `==` is not transitive: every vector equals both a tuple and a list, which differ. -/
theorem C73_transitive_violated (v : Vec2 K) :
    eq (.tuple [.num v.x, .num v.y]) (.vec v) = .ok true ∧ eq (.vec v) (.list [.num v.x, .num v.y]) = .ok true ∧
    eq (.tuple [.num v.x, .num v.y]) (.list [.num v.x, .num v.y] : Obj K) = .ok false := by
  refine ⟨?_, ?_, by simp [eq]⟩
  · simp only [eq, vecEq_items v _ _ (Or.inl rfl)]; simp [numsEq, numEq, asNum]
  · simp only [eq, vecEq_items v _ _ (Or.inr rfl)]; simp [numsEq, numEq, asNum]

/-- **C73** (violation) every vector equals any foreign object of length 2 with the same two items, whatever its hash:
`Vec2(1, 2) == range(1, 3)` and `Vec2(1, 2) == b'\x01\x02'`, whose hashes are not that of the vector. -/
theorem C73_hash_violated (H : Hashing K) (v : Vec2 K) (id : Nat) (h : Int) (hf : H.foreign id = some h)
    (hne : h ≠ H.tuple [H.num v.x, H.num v.y]) :
    ∃ o : Obj K, eq (.vec v) o = .ok true ∧ eq o (.vec v) = .ok true ∧ hash H o = some h ∧
      hash H (.vec v) ≠ hash H o := by
  have he : eq (.vec v) (.foreign id (.ok (some v.x)) (.ok (some v.y)) (.ok 2)) = .ok true := by
    simp [eq, vecEq, vecEqTry, item, numEq, len, bind, Except.bind, pure, Except.pure, catching]
  refine ⟨.foreign id (.ok (some v.x)) (.ok (some v.y)) (.ok 2), he, by rw [eq_symm]; exact he, hf, ?_⟩
  simp only [hash, hf, ne_eq, Option.some.injEq]
  exact fun e => hne e.symm

/-- **C73** shapes and sequences of different classes are never equal, and a vector equals no sequence object or shape. -/
theorem C73_classes (v : Vec2 K) (c d : SeqCls) (vs ws : List (Vec2 K)) (b : Box K) (l : Line K) (r : Ray K)
    (s : LineSegment K) (hcd : c ≠ d) :
    eq (.seq c vs) (.seq d ws) = .ok false ∧ eq (.vec v) (.seq c vs) = .ok false ∧ eq (.vec v) (.box b) = .ok false ∧
    eq (.vec v) (.line l) = .ok false ∧ eq (.line l) (.ray r) = .ok false ∧ eq (.ray r) (.segment s) = .ok false ∧
    eq (.line l) (.segment s) = .ok false ∧ eq (.box b) (.seq c vs) = .ok false := by
  refine ⟨by simp [eq, hcd], by simp only [eq, vecEq_seq], ?_, ?_, ?_, ?_, ?_, ?_⟩
  · simp only [eq]; exact vecEq_of_item (Or.inr (Or.inr rfl))
  · simp only [eq]; exact vecEq_of_item (Or.inr (Or.inr rfl))
  all_goals simp [eq]

/-- `d[Vec2(1, 0)] = 'p'` is found under `(1, 0)`, not under `(0, 1)`. -/
example (H : Hashing K) (h : (1 : K) ≠ 0) :
    let d : Dict K String := Dict.set H [] (.vec ⟨1, 0⟩) "p"
    d.get H (.tuple [.num 1, .num 0]) = some "p" ∧ d.get H (.tuple [.num 0, .num 1]) = none := by
  have hk : ∀ a b : K, Keyable (.tuple [.num a, .num b] : Obj K) := fun a b =>
    .tuple _ fun o ho => by
      simp only [List.mem_cons, List.not_mem_nil, or_false] at ho
      rcases ho with rfl | rfl
      · exact .num a
      · exact .num b
  constructor
  · refine (C73_dict H [] _ _ "p" (by simp) (.vec _) (hk 1 0)).1 ?_
    simp only [eq, vecEq_items (K := K) _ _ _ (Or.inl rfl)]; simp [numsEq, numEq, asNum]
  · rw [(C73_dict H [] _ _ "p" (by simp) (.vec _) (hk 0 1)).2.1]
    · rfl
    · simp only [eq, vecEq_items (K := K) _ _ _ (Or.inl rfl)]; simp [numsEq, numEq, asNum, h]

end
end Obj
end Planar
