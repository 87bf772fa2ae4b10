import Verif.Props.Affine
import Verif.Props.Vec
import Verif.Model.Dispatch
import Verif.Spec.PyList
import Mathlib.Data.List.Sort
import Mathlib.Data.Int.DivMod
import Mathlib.Tactic.Linarith
/- Properties C29-C33 (sequences and arrays of vectors). -/
set_option linter.unusedSectionVars false
namespace Planar
open Spec

theorem pyIndex_iff (n : Nat) (i : Int) (k : Nat) : pyIndex n i = some k ↔ PyAt n i k := by
  unfold pyIndex PyAt
  split
  · rename_i h
    split
    · rw [Option.some.injEq]; omega
    · simp only [reduceCtorEq, false_iff]; omega
  · rename_i h
    split
    · rw [Option.some.injEq]; omega
    · simp only [reduceCtorEq, false_iff]; omega

theorem pyIndex_none (n : Nat) (i : Int) : pyIndex n i = none ↔ ∀ k, ¬ PyAt n i k := by
  constructor
  · intro h k hk
    rw [(pyIndex_iff n i k).mpr hk] at h; simp at h
  · intro h
    rcases hp : pyIndex n i with _ | k
    · rfl
    · exact absurd ((pyIndex_iff n i k).mp hp) (h k)

theorem pyAt_unique {n : Nat} {i : Int} {k k' : Nat} (h : PyAt n i k) (h' : PyAt n i k') : k = k' := by
  unfold PyAt at *; omega

theorem sliceBounds_up (n : Nat) (start stop : Option Int) (step : Int) (h : step > 0) :
    sliceBounds n start stop step = (boundUp n 0 start, boundUp n n stop) := by
  unfold sliceBounds
  simp only [h, if_true]
  rcases start with _ | a <;> rcases stop with _ | b <;> simp only [boundUp, Prod.mk.injEq] <;>
    refine ⟨?_, ?_⟩ <;> first | trivial | rfl | omega

theorem sliceBounds_down (n : Nat) (start stop : Option Int) (step : Int) (h : ¬ step > 0) :
    sliceBounds n start stop step = (boundDown n (n - 1) start, boundDown n (-1) stop) := by
  unfold sliceBounds
  simp only [h, if_false]
  rcases start with _ | a <;> rcases stop with _ | b <;> simp only [boundDown, Prod.mk.injEq] <;>
    refine ⟨?_, ?_⟩ <;> first | trivial | rfl | omega

theorem boundUp_range (n : Nat) (d : Int) (hd : 0 ≤ d ∧ d ≤ n) (o : Option Int) :
    0 ≤ boundUp n d o ∧ boundUp n d o ≤ n := by
  rcases o with _ | a <;> simp only [boundUp]
  · exact hd
  · split <;> omega

theorem boundDown_range (n : Nat) (d : Int) (hd : -1 ≤ d ∧ d ≤ (n:Int) - 1) (o : Option Int) :
    -1 ≤ boundDown n d o ∧ boundDown n d o ≤ (n:Int) - 1 := by
  rcases o with _ | a <;> simp only [boundDown]
  · exact hd
  · split <;> omega

/-- The number of steps in a range: `k` is below the count iff `k * step` is below the width. -/
theorem lt_count_iff (w step : Int) (hs : 0 < step) (k : Nat) :
    k < ((w + step - 1) / step).toNat ↔ (k : Int) * step < w := by
  rw [Int.lt_toNat, Int.lt_iff_add_one_le, Int.le_ediv_iff_mul_le hs]
  constructor <;> intro h <;> nlinarith

theorem sliceIndices_eq (n : Nat) (start stop : Option Int) (step : Int) (h0 : step ≠ 0) :
    sliceIndices n start stop step = slicePositions n start stop step := by
  unfold sliceIndices slicePositions
  by_cases h : step > 0
  · simp only [h, if_true, sliceBounds_up n start stop step h]
    obtain ⟨l1, l2⟩ := boundUp_range n 0 ⟨le_rfl, by omega⟩ start
    obtain ⟨u1, u2⟩ := boundUp_range n n ⟨by omega, le_rfl⟩ stop
    set lo := boundUp n 0 start
    set hi := boundUp n n stop
    have hmem : ∀ i : Nat, i ∈ (List.range ((hi - lo + step - 1) / step).toNat).map (fun (k : Nat) => (lo + (k : Int) * step).toNat)
        ↔ i ∈ (List.range n).filter fun (i : Nat) => decide (lo ≤ i ∧ (i : Int) < hi ∧ step ∣ (i : Int) - lo) := by
      intro i
      simp only [List.mem_map, List.mem_range, List.mem_filter, decide_eq_true_eq]
      constructor
      · rintro ⟨k, hk, rfl⟩
        rw [lt_count_iff _ _ h] at hk
        have : 0 ≤ (k : Int) * step := by positivity
        have e : (((lo + k * step).toNat : Nat) : Int) = lo + k * step := Int.toNat_of_nonneg (by omega)
        refine ⟨by omega, by omega, by omega, ⟨k, ?_⟩⟩
        rw [e]; ring
      · rintro ⟨h1, h2, h3, c, hc⟩
        have hc0 : 0 ≤ c := by
          by_contra hneg
          have : step * c < 0 := mul_neg_of_pos_of_neg h (by omega)
          omega
        refine ⟨c.toNat, ?_, ?_⟩
        · rw [lt_count_iff _ _ h, Int.toNat_of_nonneg hc0, mul_comm]; omega
        · rw [Int.toNat_of_nonneg hc0, mul_comm]; omega
    have s1 : ((List.range ((hi - lo + step - 1) / step).toNat).map (fun (k : Nat) => (lo + (k : Int) * step).toNat)).Pairwise (· < ·) := by
      rw [List.pairwise_map]
      apply List.Pairwise.imp _ List.pairwise_lt_range
      intro a b hab
      have : (a : Int) * step < b * step := mul_lt_mul_of_pos_right (by omega) h
      have : 0 ≤ (a : Int) * step := by positivity
      omega
    have s2 : ((List.range n).filter fun (i : Nat) => decide (lo ≤ i ∧ (i : Int) < hi ∧ step ∣ (i : Int) - lo)).Pairwise (· < ·) :=
      List.Pairwise.filter _ List.pairwise_lt_range
    have hp := (List.perm_ext_iff_of_nodup (s1.imp (fun h => Nat.ne_of_lt h)) (s2.imp (fun h => Nat.ne_of_lt h))).mpr hmem
    exact hp.eq_of_pairwise (fun a b _ _ h1 h2 => absurd h2 (Nat.lt_asymm h1)) s1 s2
  · simp only [h, if_false, sliceBounds_down n start stop step h]
    have hneg : 0 < -step := by omega
    obtain ⟨l1, l2⟩ := boundDown_range n (n - 1) ⟨by omega, by omega⟩ start
    obtain ⟨u1, u2⟩ := boundDown_range n (-1) ⟨by omega, by omega⟩ stop
    set lo := boundDown n (n - 1) start
    set hi := boundDown n (-1) stop
    have hmem : ∀ i : Nat, i ∈ (List.range ((lo - hi + -step - 1) / -step).toNat).map (fun (k : Nat) => (lo + (k : Int) * step).toNat)
        ↔ i ∈ (List.range n).reverse.filter fun (i : Nat) => decide ((i : Int) ≤ lo ∧ hi < (i : Int) ∧ step ∣ (i : Int) - lo) := by
      intro i
      simp only [List.mem_map, List.mem_range, List.mem_filter, List.mem_reverse, decide_eq_true_eq]
      constructor
      · rintro ⟨k, hk, rfl⟩
        rw [lt_count_iff _ _ hneg] at hk
        have e0 : (k : Int) * -step = -(k * step) := by ring
        have e1 : 0 ≤ (k : Int) * -step := by positivity
        have e : (((lo + k * step).toNat : Nat) : Int) = lo + k * step := Int.toNat_of_nonneg (by omega)
        refine ⟨by omega, by omega, by omega, ⟨k, ?_⟩⟩
        rw [e]; ring
      · rintro ⟨h1, h2, h3, c, hc⟩
        have hc0 : 0 ≤ c := by
          by_contra hn
          have : 0 < step * c := mul_pos_of_neg_of_neg (by omega) (by omega)
          omega
        refine ⟨c.toNat, ?_, ?_⟩
        · rw [lt_count_iff _ _ hneg, Int.toNat_of_nonneg hc0]
          have : c * -step = -(step * c) := by ring
          omega
        · rw [Int.toNat_of_nonneg hc0, mul_comm]; omega
    have s1 : ((List.range ((lo - hi + -step - 1) / -step).toNat).map (fun (k : Nat) => (lo + (k : Int) * step).toNat)).Pairwise (· > ·) := by
      rw [List.pairwise_map]
      apply List.Pairwise.imp_of_mem _ List.pairwise_lt_range
      intro a b ha hb hab
      rw [List.mem_range, lt_count_iff _ _ hneg] at ha hb
      have e0 : (a : Int) * -step = -(a * step) := by ring
      have e1 : (b : Int) * -step = -(b * step) := by ring
      have : (a : Int) * -step < b * -step := mul_lt_mul_of_pos_right (by omega) hneg
      have : 0 ≤ (a : Int) * -step := by positivity
      omega
    have s2 : ((List.range n).reverse.filter fun (i : Nat) => decide ((i : Int) ≤ lo ∧ hi < (i : Int) ∧ step ∣ (i : Int) - lo)).Pairwise (· > ·) := by
      apply List.Pairwise.filter
      rw [List.pairwise_reverse]
      exact List.pairwise_lt_range
    have hp := (List.perm_ext_iff_of_nodup (s1.imp (fun h => Nat.ne_of_gt h)) (s2.imp (fun h => Nat.ne_of_gt h))).mpr hmem
    exact hp.eq_of_pairwise (fun a b _ _ h1 h2 => absurd h2 (Nat.lt_asymm h1)) s1 s2

theorem slicePositions_facts (n : Nat) (start stop : Option Int) (step : Int) :
    (slicePositions n start stop step).Nodup ∧ ∀ k ∈ slicePositions n start stop step, k < n := by
  unfold slicePositions
  split
  · refine ⟨List.Nodup.filter _ List.nodup_range, ?_⟩
    intro k hk
    exact List.mem_range.mp (List.mem_filter.mp hk).1
  · refine ⟨List.Nodup.filter _ (List.nodup_reverse.mpr List.nodup_range), ?_⟩
    intro k hk
    exact List.mem_range.mp (List.mem_reverse.mp (List.mem_filter.mp hk).1)

section Rounded
variable {K : Type} [LinearOrder K] [Add K] [Sub K] [Mul K] [Div K] [Neg K] [Zero K] [One K] [RoundedArith K]

/-- Mutating operations on a Vec2Array. -/
inductive ArrOp (K : Type) where
  | append (v : Vec2 K)
  | extend (vs : List (Vec2 K))
  | insert (i : Int) (v : Vec2 K)
  | setItem (i : Int) (v : Vec2 K)
  | delItem (i : Int)
  | setSlice (start stop : Option Int) (step : Int) (vs : List (Vec2 K))
  | delSlice (start stop : Option Int) (step : Int)

/-- The operation on the model. -/
def ArrOp.exec (op : ArrOp K) (s : Vecs K) : Py Unit × Vecs K :=
  match op with
  | .append v => (.ok (), Vec2Array.append s v)
  | .extend vs => (.ok (), Vec2Array.extend s vs)
  | .insert i v => (.ok (), Vec2Array.insert s i v)
  | .setItem i v => Vec2Array.setItem s i v
  | .delItem i => Vec2Array.delItem s i
  | .setSlice a b c vs => Vec2Array.setSlice s a b c vs
  | .delSlice a b c => Vec2Array.delSlice s a b c

/-- What a Python list does (specification): the outcome `r` and the list afterwards `l'`, for a list `l` before. -/
def ListPost (op : ArrOp K) (l : Vecs K) (r : Py Unit) (l' : Vecs K) : Prop :=
  match op with
  | .append v => r = .ok () ∧ l'.length = l.length + 1 ∧ l'[l.length]? = some v ∧
      ∀ j < l.length, l'[j]? = l[j]?
  | .extend vs => r = .ok () ∧ l' = l ++ vs
  | .insert i v => r = .ok () ∧ ∃ k : Nat, (k : Int) = boundUp l.length 0 (some i) ∧
      l'.length = l.length + 1 ∧ (∀ j < k, l'[j]? = l[j]?) ∧ l'[k]? = some v ∧ ∀ j ≥ k, l'[j + 1]? = l[j]?
  | .setItem i v =>
      (∃ k, PyAt l.length i k ∧ r = .ok () ∧ l'.length = l.length ∧ l'[k]? = some v ∧
        ∀ j, j ≠ k → l'[j]? = l[j]?) ∨
      ((∀ k, ¬ PyAt l.length i k) ∧ r = .error .indexError ∧ l' = l)
  | .delItem i =>
      (∃ k, PyAt l.length i k ∧ r = .ok () ∧ l'.length + 1 = l.length ∧ (∀ j < k, l'[j]? = l[j]?) ∧
        ∀ j ≥ k, l'[j]? = l[j + 1]?) ∨
      ((∀ k, ¬ PyAt l.length i k) ∧ r = .error .indexError ∧ l' = l)
  | .setSlice start stop step vs =>
      (step = 0 ∧ r = .error .valueError ∧ l' = l) ∨
      (step = 1 ∧ r = .ok () ∧ ∃ lo hi : Nat, (lo : Int) = boundUp l.length 0 start ∧
        (hi : Int) = max (lo : Int) (boundUp l.length l.length stop) ∧ l' = l.take lo ++ vs ++ l.drop hi) ∨
      (step ≠ 0 ∧ step ≠ 1 ∧ (slicePositions l.length start stop step).length = vs.length ∧ r = .ok () ∧
        l'.length = l.length ∧
        (∀ m : Nat, ∀ k v, (slicePositions l.length start stop step)[m]? = some k → vs[m]? = some v → l'[k]? = some v) ∧
        ∀ k, k ∉ slicePositions l.length start stop step → l'[k]? = l[k]?) ∨
      (step ≠ 0 ∧ step ≠ 1 ∧ (slicePositions l.length start stop step).length ≠ vs.length ∧
        r = .error .valueError ∧ l' = l)
  | .delSlice start stop step =>
      (step = 0 ∧ r = .error .valueError ∧ l' = l) ∨
      (step ≠ 0 ∧ r = .ok () ∧ l' = ((List.range l.length).filter
        (fun k => decide (k ∉ slicePositions l.length start stop step))).filterMap (fun k => l[k]?))

theorem foldl_set_length (ivs : List (Nat × Vec2 K)) (l : Vecs K) :
    (ivs.foldl (fun l iv => l.set iv.1 iv.2) l).length = l.length := by
  induction ivs generalizing l with
  | nil => rfl
  | cons iv ivs ih => simp [ih]

theorem foldl_set_other (ivs : List (Nat × Vec2 K)) (l : Vecs K) (k : Nat)
    (h : ∀ iv ∈ ivs, iv.1 ≠ k) : (ivs.foldl (fun l iv => l.set iv.1 iv.2) l)[k]? = l[k]? := by
  induction ivs generalizing l with
  | nil => rfl
  | cons iv ivs ih =>
    simp only [List.foldl_cons]
    rw [ih _ (fun iv' h' => h iv' (List.mem_cons_of_mem _ h')), List.getElem?_set_ne (h iv List.mem_cons_self)]

theorem foldl_set_hit (idx : List Nat) (vs : List (Vec2 K)) (l : Vecs K) (hn : idx.Nodup)
    (hb : ∀ k ∈ idx, k < l.length) (m k : Nat) (v : Vec2 K) (hk : idx[m]? = some k) (hv : vs[m]? = some v) :
    ((idx.zip vs).foldl (fun l iv => l.set iv.1 iv.2) l)[k]? = some v := by
  induction idx generalizing vs l m with
  | nil => simp at hk
  | cons i idx ih =>
    cases vs with
    | nil => simp at hv
    | cons w vs =>
      simp only [List.zip_cons_cons, List.foldl_cons]
      rw [List.nodup_cons] at hn
      cases m with
      | zero =>
        simp only [List.getElem?_cons_zero, Option.some.injEq] at hk hv
        subst hk hv
        rw [foldl_set_other]
        · exact List.getElem?_set_self (hb i List.mem_cons_self)
        · intro iv hiv
          have := (List.of_mem_zip hiv).1
          rintro rfl
          exact hn.1 this
      | succ m =>
        simp only [List.getElem?_cons_succ] at hk hv
        exact ih vs (l.set i w) hn.2 (by intro k' hk'; simpa using hb k' (List.mem_cons_of_mem _ hk')) m hk hv

theorem map_copy (vs : List (Vec2 K)) : vs.map Vec2.copy = vs := by
  conv_rhs => rw [← List.map_id vs]
  exact List.map_congr_left fun v _ => by simp

/-- **C29** every mutating operation of a Vec2Array does what the same operation on a Python list of the vectors does,
including the exceptions, after which the array is unchanged. -/
theorem C29_vec2array_op (op : ArrOp K) (s : Vecs K) : ListPost op s (op.exec s).1 (op.exec s).2 := by
  cases op with
  | append v =>
    refine ⟨rfl, by simp [ArrOp.exec, Vec2Array.append], by simp [ArrOp.exec, Vec2Array.append], ?_⟩
    intro j hj
    simp only [ArrOp.exec, Vec2Array.append]
    rw [List.getElem?_append_left hj]
  | extend vs => exact ⟨rfl, by simp only [ArrOp.exec, Vec2Array.extend, map_copy]⟩
  | insert i v =>
    refine ⟨rfl, ?_⟩
    simp only [ArrOp.exec, Vec2Array.insert, Vec2.copy_fl]
    set k0 : Int := if (if i < 0 then i + (s.length : Int) else i) < 0 then 0
      else if (if i < 0 then i + (s.length : Int) else i) > s.length then s.length
      else (if i < 0 then i + (s.length : Int) else i) with hk0
    have hk : k0 = boundUp s.length 0 (some i) := by
      rw [hk0]; simp only [boundUp]; (repeat' split) <;> omega
    have hr := boundUp_range s.length 0 ⟨le_rfl, by omega⟩ (some i)
    have hle : k0.toNat ≤ s.length := by omega
    refine ⟨k0.toNat, by omega, ?_, ?_, ?_, ?_⟩
    · simp; omega
    · intro j hj
      rw [List.getElem?_append_left (by simp; omega), List.getElem?_take_of_lt hj]
    · rw [List.getElem?_append_right (by simp)]
      simp [List.length_take, Nat.min_eq_left hle]
    · intro j hj
      rw [List.getElem?_append_right (by simp; omega)]
      rw [List.length_take, Nat.min_eq_left hle, show j + 1 - k0.toNat = (j - k0.toNat) + 1 by omega,
        List.getElem?_cons_succ, List.getElem?_drop]
      congr 1; omega
  | setItem i v =>
    simp only [ArrOp.exec, Vec2Array.setItem, pySet, Vec2.copy_fl]
    rcases hp : pyIndex s.length i with _ | k
    · exact Or.inr ⟨(pyIndex_none _ _).mp hp, rfl, rfl⟩
    · have hat := (pyIndex_iff _ _ _).mp hp
      exact Or.inl ⟨k, hat, rfl, by simp, List.getElem?_set_self hat.2,
        fun j hj => List.getElem?_set_ne (Ne.symm hj)⟩
  | delItem i =>
    simp only [ArrOp.exec, Vec2Array.delItem]
    rcases hp : pyIndex s.length i with _ | k
    · exact Or.inr ⟨(pyIndex_none _ _).mp hp, rfl, rfl⟩
    · have hat := (pyIndex_iff _ _ _).mp hp
      have := hat.2
      refine Or.inl ⟨k, hat, rfl, ?_, ?_, ?_⟩
      · rw [List.length_eraseIdx_of_lt this]; omega
      · intro j hj; exact List.getElem?_eraseIdx_of_lt hj
      · intro j hj; exact List.getElem?_eraseIdx_of_ge hj
  | setSlice start stop step vs =>
    simp only [ArrOp.exec, Vec2Array.setSlice, map_copy, ListPost]
    by_cases h0 : step = 0
    · left; simp [h0]
    · by_cases h1 : step = 1
      · right; left
        subst h1
        have hb := sliceBounds_up s.length start stop 1 (by omega)
        obtain ⟨l1, l2⟩ := boundUp_range s.length 0 ⟨le_rfl, by omega⟩ start
        obtain ⟨u1, u2⟩ := boundUp_range s.length s.length ⟨by omega, le_rfl⟩ stop
        refine ⟨rfl, by simp, (boundUp s.length 0 start).toNat,
          (max (boundUp s.length 0 start) (boundUp s.length s.length stop)).toNat, by omega, by omega, ?_⟩
        simp only [hb, show (1:Int) ≠ 0 by omega, if_false, if_true]
        congr 2
        split <;> omega
      · right; right
        rw [sliceIndices_eq _ _ _ _ h0]
        obtain ⟨hn, hbd⟩ := slicePositions_facts s.length start stop step
        by_cases hl : (slicePositions s.length start stop step).length = vs.length
        · left
          simp only [h0, h1, hl, if_false, if_true]
          refine ⟨h0, h1, trivial, trivial, foldl_set_length _ _, ?_, ?_⟩
          · intro m k v hk hv
            exact foldl_set_hit _ _ _ hn hbd m k v hk hv
          · intro k hk
            apply foldl_set_other
            intro iv hiv
            have := (List.of_mem_zip hiv).1
            rintro rfl
            exact hk this
        · right
          simp only [h0, h1, hl, if_false]
          exact ⟨h0, h1, hl, trivial, trivial⟩
  | delSlice start stop step =>
    simp only [ArrOp.exec, Vec2Array.delSlice, ListPost]
    by_cases h0 : step = 0
    · left; simp [h0]
    · right
      simp only [h0, if_false]
      refine ⟨h0, trivial, ?_⟩
      rw [sliceIndices_eq _ _ _ _ h0, List.filterMap_filter]
      apply List.filterMap_congr
      intro k hk
      by_cases hm : k ∈ slicePositions s.length start stop step <;> simp [hm]

/-- **C29** reads: an item read gives the item at the position or IndexError; a slice read gives the items at the slice's
positions in order (ValueError for step 0). -/
theorem C29_reads (s : Vecs K) (i : Int) (start stop : Option Int) (step : Int) :
    (∀ k, PyAt s.length i k → ∃ v, s[k]? = some v ∧ Vec2Array.getItem s i = .ok v) ∧
    ((∀ k, ¬ PyAt s.length i k) → Vec2Array.getItem s i = .error .indexError) ∧
    (step ≠ 0 → Vec2Array.getSlice s start stop step =
      .ok ((slicePositions s.length start stop step).filterMap fun k => s[k]?)) ∧
    (step = 0 → Vec2Array.getSlice s start stop step = .error .valueError) := by
  refine ⟨?_, ?_, ?_, ?_⟩
  · intro k hk
    refine ⟨s[k]'hk.2, List.getElem?_eq_getElem hk.2, ?_⟩
    simp [Vec2Array.getItem, pyGet, (pyIndex_iff _ _ _).mpr hk, List.getElem?_eq_getElem hk.2]
  · intro h
    simp [Vec2Array.getItem, pyGet, (pyIndex_none _ _).mpr h]
  · intro h
    simp [Vec2Array.getSlice, h, sliceIndices_eq _ _ _ _ h, Vec2Array.fromPoints]
  · intro h; simp [Vec2Array.getSlice, h]

/-- A run of Python-list steps from `l` to `l'`. -/
inductive ListRun : Vecs K → List (ArrOp K) → Vecs K → Prop
  | nil (l) : ListRun l [] l
  | cons {l op r l' ops l''} : ListPost op l r l' → ListRun l' ops l'' → ListRun l (op :: ops) l''

/-- **C29** for every history of operations (failed ones included). -/
theorem C29_history (ops : List (ArrOp K)) (s : Vecs K) :
    ListRun s ops (ops.foldl (fun s op => (op.exec s).2) s) := by
  induction ops generalizing s with
  | nil => exact .nil s
  | cons op ops ih => exact .cons (C29_vec2array_op op s) (ih _)

/-- **C19** (Seq2, Vec2Array) `seq *= T` succeeds and leaves at each index the transform of the old point there; `T * seq`
is the sequence of those same points. -/
theorem C19_sequences (s : Vecs K) (T : Affine K) :
    Vec2Array.imulT s T = (.ok (), s.map T.apply) ∧ Vec2Array.transformed s T = s.map T.apply :=
  ⟨congrArg (Prod.mk _) (C19_itransform T s).1, ((C19_itransform T s).2.2.symm.trans (C19_itransform T s).1)⟩

/-- **C29** a new array (by the constructor, by from_points or as a copy) holds the given vectors in the given order. -/
theorem C29_constructors (vs : List (Vec2 K)) :
    Vec2Array.new vs = vs ∧ Vec2Array.fromPoints vs = vs ∧ Vec2Array.copy vs = vs :=
  ⟨List.map_id'' Vec2.copy_fl vs, rfl, rfl⟩

/-- **C29** (partial) a Seq2 keeps its length under item assignments and in-place transforms. Slice assignment, which the
class also accepts, breaks it: see `C29_seq2_slice_violated`. -/
theorem C29_seq2_length_partial (s : Vecs K) (i : Int) (v : Vec2 K) (T : Affine K) :
    (Vec2Array.setItem s i v).2.length = s.length ∧ (Vec2Array.imulT s T).2.length = s.length := by
  constructor
  · have := C29_vec2array_op (.setItem i v) s
    rcases this with ⟨k, -, -, h, -⟩ | ⟨-, -, h⟩
    · exact h
    · exact congrArg List.length h
  · exact (C19_itransform T s).2.1

/-- **C29** is violated for Seq2: assigning a vector to the slice `seq[0:1]` of a 3-point Seq2 leaves 4 items, two of
them bare numbers. -/
theorem C29_seq2_slice_violated : ∃ s : List (Cell ℚ), s.length = 3 ∧
    (seq2SetSlice s (some 0) (some 1) ⟨7, 8⟩) =
      [.num 7, .num 8, .vec ⟨2, 2⟩, .vec ⟨3, 3⟩] := by
  refine ⟨[.vec ⟨1, 1⟩, .vec ⟨2, 2⟩, .vec ⟨3, 3⟩], rfl, ?_⟩
  simp [seq2SetSlice, sliceBounds]

/-- Two numbers are a vector. -/
theorem ofSeq_two (w : Vec2 K) : Vec2Array.ofSeq w.toList = .ok w := by simp [Vec2Array.ofSeq, Vec2.toList]

/-- Any other number of them is not. -/
theorem ofSeq_bad (v : List K) (h : v.length ≠ 2) : Vec2Array.ofSeq v = .error .typeError := by
  rcases v with _ | ⟨a, _ | ⟨b, _ | ⟨c, v⟩⟩⟩ <;> simp_all [Vec2Array.ofSeq]

theorem mapM_ofSeq_good (ws : List (Vec2 K)) : (ws.map Vec2.toList).mapM Vec2Array.ofSeq = .ok ws := by
  induction ws with
  | nil => rfl
  | cons w ws ih => simp only [List.map_cons, List.mapM_cons, ofSeq_two, ih, bind, Except.bind, pure, Except.pure]

theorem mapM_ofSeq_bad (vs : List (List K)) (h : ∃ v ∈ vs, v.length ≠ 2) : vs.mapM Vec2Array.ofSeq = .error .typeError := by
  induction vs with
  | nil => simp at h
  | cons v vs ih =>
    by_cases hv : v.length = 2
    · obtain ⟨a, b, rfl⟩ := List.length_eq_two.mp hv
      have hr : ∃ v ∈ vs, v.length ≠ 2 := by
        obtain ⟨u, hu, hn⟩ := h
        rcases List.mem_cons.mp hu with rfl | hu
        · exact absurd rfl hn
        · exact ⟨u, hu, hn⟩
      have := ofSeq_two (⟨a, b⟩ : Vec2 K)
      simp only [Vec2.toList] at this
      simp only [List.mapM_cons, this, ih hr, bind, Except.bind]
    · simp only [List.mapM_cons, ofSeq_bad v hv, bind, Except.bind]

/-- **C29** append, insert and item assignment of a sequence of numbers: two numbers are stored as that vector, any other
number of them is a TypeError and changes nothing (for an assignment also when the index is out of range). -/
theorem C29_raw_item (s : Vecs K) (i : Int) (v : List K) :
    (∀ w : Vec2 K, v = [w.x, w.y] → Vec2Array.appendRaw s v = (.ok (), s ++ [w]) ∧
      Vec2Array.insertRaw s i v = (.ok (), Vec2Array.insert s i w) ∧
      Vec2Array.setItemRaw s i v = Vec2Array.setItem s i w) ∧
    (v.length ≠ 2 → Vec2Array.appendRaw s v = (.error .typeError, s) ∧
      Vec2Array.insertRaw s i v = (.error .typeError, s) ∧ Vec2Array.setItemRaw s i v = (.error .typeError, s)) := by
  refine ⟨fun w hw => ?_, fun h => ?_⟩
  · have := ofSeq_two w
    rw [show w.toList = v from hw.symm] at this
    simp [Vec2Array.appendRaw, Vec2Array.insertRaw, Vec2Array.setItemRaw, Vec2Array.setItem, this]
  · simp only [Vec2Array.appendRaw, Vec2Array.insertRaw, Vec2Array.setItemRaw, ofSeq_bad v h, and_self]

/-- **C29** the constructor, extend and slice assignment of sequences of numbers: pairs are stored as vectors, in order; with
anything else among them the constructor and the slice assignment raise TypeError, the latter changing nothing. -/
theorem C29_raw_items (s : Vecs K) (start stop : Option Int) (step : Int) (vs : List (List K)) :
    (∀ ws : List (Vec2 K), vs = ws.map (fun w => [w.x, w.y]) → Vec2Array.newRaw vs = .ok ws ∧
      Vec2Array.extendRaw s vs = (.ok (), s ++ ws) ∧
      Vec2Array.setSliceRaw s start stop step vs = Vec2Array.setSlice s start stop step ws) ∧
    ((∃ v ∈ vs, v.length ≠ 2) → Vec2Array.newRaw vs = .error .typeError ∧
      Vec2Array.setSliceRaw s start stop step vs = (.error .typeError, s)) := by
  refine ⟨fun ws hw => ?_, fun h => ?_⟩
  · have hw' : vs = ws.map Vec2.toList := hw
    subst hw'
    refine ⟨mapM_ofSeq_good ws, ?_, by simp only [Vec2Array.setSliceRaw, mapM_ofSeq_good ws]⟩
    clear hw
    induction ws generalizing s with
    | nil => simp [Vec2Array.extendRaw]
    | cons w ws ih =>
      rw [List.map_cons, Vec2Array.extendRaw, ofSeq_two]
      simp only [ih, List.append_assoc, List.singleton_append]
  · simp only [Vec2Array.newRaw, Vec2Array.setSliceRaw, mapM_ofSeq_bad vs h, and_self]

/-- **C29** extend with a malformed item raises TypeError and keeps the items consumed before it (not atomic). -/
theorem C29_extend_raw (s : Vecs K) (good : List (Vec2 K)) (bad : List K) (rest : List (List K))
    (hbad : bad.length ≠ 2) :
    Vec2Array.extendRaw s (good.map (fun w => [w.x, w.y]) ++ bad :: rest) = (.error .typeError, s ++ good) := by
  induction good generalizing s with
  | nil => simp [Vec2Array.extendRaw, ofSeq_bad bad hbad]
  | cons v good ih =>
    have := ih (s ++ [v])
    simpa [Vec2Array.extendRaw, Vec2Array.ofSeq, Vec2.toList] using this

/-- Non-trivial cases of the raw operations: three numbers among pairs. -/
example : Vec2Array.setSliceRaw [⟨0, 0⟩, ⟨1, 1⟩] (some 0) (some 1) 1 [[5, 6], [7, 8, (9 : ℚ)]] =
      (.error .typeError, [⟨0, 0⟩, ⟨1, 1⟩]) ∧
    Vec2Array.extendRaw [⟨0, 0⟩] [[5, 6], [7, 8, (9 : ℚ)], [1, 2]] = (.error .typeError, [⟨0, 0⟩, ⟨5, 6⟩]) ∧
    Vec2Array.newRaw [[5, 6], [7, (8 : ℚ)]] = .ok [⟨5, 6⟩, ⟨7, 8⟩] := by
  refine ⟨((C29_raw_items _ _ _ _ _).2 ⟨[7, 8, 9], by simp, by simp⟩).2, ?_, ((C29_raw_items [] none none 1 _).1 [⟨5, 6⟩, ⟨7, 8⟩] rfl).1⟩
  exact C29_extend_raw [⟨0, 0⟩] [⟨5, 6⟩] [7, 8, 9] [[1, 2]] (by simp)

example : ArrOp.exec (.setSlice none none (-2) [⟨9, 9⟩, ⟨8, 8⟩]) [⟨0, 0⟩, ⟨1, 1⟩, ⟨2, (2:ℚ)⟩] =
    (.ok (), [⟨8, 8⟩, ⟨1, 1⟩, ⟨9, 9⟩]) := by
  simp [ArrOp.exec, Vec2Array.setSlice, sliceIndices, sliceBounds, List.range_succ]

/-! ### C30 -/

/-- `out` holds at each index the element-wise result (specification). -/
def Elementwise (f : Vec2 K → Vec2 K → Vec2 K) (s o out : Vecs K) : Prop :=
  out.length = s.length ∧ ∀ (i : Nat) a b, s[i]? = some a → o[i]? = some b → out[i]? = some (f a b)

/-- `out` holds `f` of each element. -/
def EachElement (f : Vec2 K → Vec2 K) (s out : Vecs K) : Prop :=
  out.length = s.length ∧ ∀ (i : Nat) a, s[i]? = some a → out[i]? = some (f a)

theorem zipWith_elementwise (f : Vec2 K → Vec2 K → Vec2 K) (s o : Vecs K) (h : s.length = o.length) :
    Elementwise f s o (List.zipWith f s o) := by
  refine ⟨by simp [h], ?_⟩
  intro i a b ha hb
  simp [List.getElem?_zipWith, ha, hb]

theorem map_each (f : Vec2 K → Vec2 K) (s : Vecs K) : EachElement f s (s.map f) := by
  refine ⟨by simp, ?_⟩
  intro i a ha
  simp [ha]

/-- **C30** `+`, `-`, `*` between arrays of the same length, and with a vector or a scalar. -/
theorem C30_elementwise (s o : Vecs K) (v : Vec2 K) (k : K) (h : s.length = o.length) :
    (∃ out, Vec2Array.add s (.arr o) = .ok out ∧ Elementwise (fun a b => ⟨a.x + b.x, a.y + b.y⟩) s o out) ∧
    (∃ out, Vec2Array.sub s (.arr o) = .ok out ∧ Elementwise (fun a b => ⟨a.x - b.x, a.y - b.y⟩) s o out) ∧
    (∃ out, Vec2Array.rsub s o = .ok out ∧ Elementwise (fun a b => ⟨b.x - a.x, b.y - a.y⟩) s o out) ∧
    (∃ out, Vec2Array.mul s (.arr o) = .ok out ∧ Elementwise (fun a b => ⟨a.x * b.x, a.y * b.y⟩) s o out) ∧
    (∃ out, Vec2Array.add s (.vec v) = .ok out ∧ EachElement (fun a => ⟨a.x + v.x, a.y + v.y⟩) s out) ∧
    (∃ out, Vec2Array.sub s (.vec v) = .ok out ∧ EachElement (fun a => ⟨a.x - v.x, a.y - v.y⟩) s out) ∧
    (∃ out, Vec2Array.mul s (.vec v) = .ok out ∧ EachElement (fun a => ⟨a.x * v.x, a.y * v.y⟩) s out) ∧
    (∃ out, Vec2Array.mul s (.num k) = .ok out ∧ EachElement (fun a => ⟨a.x * k, a.y * k⟩) s out) ∧
    EachElement (fun a => ⟨-a.x, -a.y⟩) s (Vec2Array.neg s) := by
  refine ⟨⟨_, by simp only [Vec2Array.add, h, if_true]; rfl, zipWith_elementwise _ s o h⟩,
    ⟨_, by simp only [Vec2Array.sub, h, if_true]; rfl, zipWith_elementwise _ s o h⟩,
    ⟨_, by simp only [Vec2Array.rsub, h, if_true]; rfl, zipWith_elementwise _ s o h⟩,
    ⟨_, by simp only [Vec2Array.mul, h, if_true]; rfl, zipWith_elementwise _ s o h⟩,
    ⟨_, by simp only [Vec2Array.add, Vec2.copy_fl]; rfl, map_each _ s⟩,
    ⟨_, by simp only [Vec2Array.sub, Vec2.copy_fl]; rfl, map_each _ s⟩,
    ⟨_, by simp only [Vec2Array.mul, Vec2.copy_fl]; rfl, map_each _ s⟩,
    ⟨_, rfl, map_each _ s⟩, map_each _ s⟩

/-- Arrays of different lengths: ValueError, and the in-place forms leave the array unchanged. -/
theorem C30_length_mismatch (s o : Vecs K) (h : s.length ≠ o.length) :
    Vec2Array.add s (.arr o) = .error .valueError ∧ Vec2Array.sub s (.arr o) = .error .valueError ∧
    Vec2Array.rsub s o = .error .valueError ∧
    Vec2Array.mul s (.arr o) = .error .valueError ∧ Vec2Array.truediv s (.arr o) = .error .valueError ∧
    Vec2Array.iadd s (.arr o) = (.error .valueError, s) ∧ Vec2Array.isub s (.arr o) = (.error .valueError, s) ∧
    Vec2Array.imul s (.arr o) = (.error .valueError, s) ∧
    Vec2Array.itruediv s (.arr o) = (.error .valueError, s) := by
  simp [Vec2Array.add, Vec2Array.sub, Vec2Array.rsub, Vec2Array.mul, Vec2Array.truediv, Vec2Array.iadd,
    Vec2Array.isub, Vec2Array.imul, Vec2Array.itruediv, h]

/-- The in-place form agrees with the out-of-place form: same exception and array unchanged, or same result. -/
def InPlaceAgrees (s : Vecs K) (out : Py (Vecs K)) (inp : Py Unit × Vecs K) : Prop :=
  match out with
  | .ok l => inp = (.ok (), l)
  | .error e => inp = (.error e, s)

/-- **C30** in-place and out-of-place forms agree for every kind of argument. -/
theorem C30_in_place (s : Vecs K) (arg : ArrArg K) :
    InPlaceAgrees s (Vec2Array.add s arg) (Vec2Array.iadd s arg) ∧
    InPlaceAgrees s (Vec2Array.sub s arg) (Vec2Array.isub s arg) ∧
    InPlaceAgrees s (Vec2Array.mul s arg) (Vec2Array.imul s arg) ∧
    InPlaceAgrees s (Vec2Array.truediv s arg) (Vec2Array.itruediv s arg) := by
  have ha : ∀ p : Py (Vecs K), InPlaceAgrees s p (Vec2Array.assign s p) := by
    intro p; cases p <;> rfl
  cases arg with
  | arr o =>
    by_cases h : s.length = o.length
    · refine ⟨?_, ?_, ?_, ?_⟩
      · simp [InPlaceAgrees, Vec2Array.add, Vec2Array.iadd, h]
      · simp [InPlaceAgrees, Vec2Array.sub, Vec2Array.isub, h]
      · simp [InPlaceAgrees, Vec2Array.mul, Vec2Array.imul, h]
      · simp only [Vec2Array.truediv, Vec2Array.itruediv, h, if_true]; exact ha _
    · simp [InPlaceAgrees, Vec2Array.add, Vec2Array.iadd, Vec2Array.sub, Vec2Array.isub, Vec2Array.mul,
        Vec2Array.imul, Vec2Array.truediv, Vec2Array.itruediv, h]
  | vec v => exact ⟨rfl, rfl, rfl, ha _⟩
  | num k => exact ⟨rfl, rfl, rfl, ha _⟩

theorem mapM_ok_iff {α β : Type} (f : α → Py β) (l : List α) (out : List β) :
    l.mapM f = .ok out ↔ out.length = l.length ∧ ∀ (i : Nat) a, l[i]? = some a → ∃ b, f a = .ok b ∧ out[i]? = some b := by
  induction l generalizing out with
  | nil =>
    simp only [List.mapM_nil, List.length_nil]
    constructor
    · intro h
      have : out = [] := by cases h; rfl
      subst this; simp
    · rintro ⟨h, -⟩
      rw [List.length_eq_zero_iff.mp h]; rfl
  | cons a l ih =>
    rw [List.mapM_cons]
    constructor
    · intro h
      rcases hf : f a with e | b
      · rw [hf] at h; cases h
      · rw [hf] at h
        rcases hl : l.mapM f with e | bs
        · rw [hl] at h; cases h
        · rw [hl] at h
          have : out = b :: bs := by cases h; rfl
          subst this
          obtain ⟨h1, h2⟩ := (ih bs).mp hl
          refine ⟨by simp [h1], ?_⟩
          intro i x hx
          cases i with
          | zero => simp at hx; subst hx; exact ⟨b, hf, by simp⟩
          | succ i => simp at hx; simpa using h2 i x hx
    · rintro ⟨h1, h2⟩
      cases out with
      | nil => simp at h1
      | cons b bs =>
        obtain ⟨b', hb, hb'⟩ := h2 0 a (by simp)
        simp at hb'; subst hb'
        have := (ih bs).mpr ⟨by simpa using h1, fun i x hx => by simpa using h2 (i+1) x (by simpa using hx)⟩
        rw [hb, this]; rfl

theorem mapM_error {α β : Type} (f : α → Py β) (l : List α) (e : PyErr) (h : l.mapM f = .error e) :
    ∃ a ∈ l, f a = .error e := by
  induction l with
  | nil => cases h
  | cons a l ih =>
    rw [List.mapM_cons] at h
    rcases hf : f a with e' | b
    · rw [hf] at h
      have : e' = e := by cases h; rfl
      exact ⟨a, by simp, by rw [hf, this]⟩
    · rw [hf] at h
      rcases hl : l.mapM f with e' | bs
      · rw [hl] at h
        have : e' = e := by cases h; rfl
        obtain ⟨x, hx, hx'⟩ := ih (by rw [hl, this])
        exact ⟨x, by simp [hx], hx'⟩
      · rw [hl] at h; cases h

/-- **C30** division: element-wise when no divisor has a zero component, otherwise ZeroDivisionError (and, by
`C30_in_place`, the in-place form then changes nothing). -/
theorem C30_division (s o : Vecs K) (k : K) (h : s.length = o.length) :
    ((∀ b ∈ o, b.x ≠ 0 ∧ b.y ≠ 0) → ∃ out, Vec2Array.truediv s (.arr o) = .ok out ∧
      Elementwise (fun a b => ⟨a.x / b.x, a.y / b.y⟩) s o out) ∧
    ((∃ b ∈ o, b.x = 0 ∨ b.y = 0) → Vec2Array.truediv s (.arr o) = .error .zeroDivisionError) ∧
    (k ≠ 0 → ∃ out, Vec2Array.truediv s (.num k) = .ok out ∧ EachElement (fun a => ⟨a.x / k, a.y / k⟩) s out) ∧
    (k = 0 → s ≠ [] → Vec2Array.truediv s (.num k) = .error .zeroDivisionError) := by
  have hdiv : ∀ v w : Vec2 K, (w.x ≠ 0 ∧ w.y ≠ 0 ∧ v.vdiv w = .ok ⟨v.x / w.x, v.y / w.y⟩) ∨
      ((w.x = 0 ∨ w.y = 0) ∧ v.vdiv w = .error .zeroDivisionError) := by
    intro v w
    by_cases hx : w.x = 0
    · right; simp [Vec2.vdiv, hx]; rfl
    · by_cases hy : w.y = 0
      · right; simp [Vec2.vdiv, hy, pydiv_ok hx]; rfl
      · left; exact ⟨hx, hy, by simp only [Vec2.vdiv, pydiv_ok hx, pydiv_ok hy]; rfl⟩
  refine ⟨?_, ?_, ?_, ?_⟩
  · intro hb
    refine ⟨List.zipWith (fun a b => ⟨a.x / b.x, a.y / b.y⟩) s o, ?_, zipWith_elementwise _ s o h⟩
    simp only [Vec2Array.truediv, h, if_true]
    rw [mapM_ok_iff]
    refine ⟨by simp, ?_⟩
    intro i ab hab
    rw [List.getElem?_zip_eq_some] at hab
    have := hb ab.2 (List.mem_of_getElem? hab.2)
    rcases hdiv ab.1 ab.2 with ⟨-, -, h'⟩ | ⟨h', -⟩
    · exact ⟨_, h', by simp [List.getElem?_zipWith, hab.1, hab.2]⟩
    · rcases h' with h' | h'
      · exact absurd h' this.1
      · exact absurd h' this.2
  · rintro ⟨b, hb, hz⟩
    simp only [Vec2Array.truediv, h, if_true]
    rcases hm : (s.zip o).mapM fun ab => ab.1.vdiv ab.2 with e | out
    · obtain ⟨ab, -, he⟩ := mapM_error _ _ _ hm
      rcases hdiv ab.1 ab.2 with ⟨-, -, h'⟩ | ⟨-, h'⟩
      · rw [he] at h'; cases h'
      · rw [he] at h'; rw [Except.error.inj h'] at hm; exact hm
    · exfalso
      obtain ⟨i, hi, rfl⟩ := List.getElem_of_mem hb
      obtain ⟨h1, h2⟩ := (mapM_ok_iff _ _ _).mp hm
      obtain ⟨c, hc, -⟩ := h2 i (s[i]'(h ▸ hi), o[i]) (by
        rw [List.getElem?_zip_eq_some]; exact ⟨List.getElem?_eq_getElem _, List.getElem?_eq_getElem _⟩)
      rcases hdiv (s[i]'(h ▸ hi)) o[i] with ⟨h3, h4, -⟩ | ⟨-, h'⟩
      · rcases hz with hz | hz
        · exact h3 hz
        · exact h4 hz
      · simp only [h'] at hc; cases hc
  · intro hk
    refine ⟨s.map fun a => ⟨a.x / k, a.y / k⟩, ?_, map_each _ s⟩
    simp only [Vec2Array.truediv]
    rw [mapM_ok_iff]
    refine ⟨by simp, ?_⟩
    intro i a ha
    refine ⟨⟨a.x / k, a.y / k⟩, ?_, by simp [ha]⟩
    simp only [Vec2.sdiv, pydiv_ok hk]
    rfl
  · rintro rfl hne
    obtain ⟨a, s, rfl⟩ := List.exists_cons_of_ne_nil hne
    simp only [Vec2Array.truediv, List.mapM_cons, Vec2.sdiv, pydiv_zero]
    rfl

/-! ### C31 -/

theorem shortestLoop_spec (s : Vecs K) : ∀ (sh : Vec2 K),
    ∃ r, Vec2Array.shortestLoop s sh sh.length2 = r ∧ (r = sh ∨ r ∈ s) ∧ r.length2 ≤ sh.length2 ∧
      (∀ v ∈ s, r.length2 ≤ v.length2) ∧
      ((r = sh ∧ ∀ v ∈ s, sh.length2 ≤ v.length2) ∨
        ∃ pre post, s = pre ++ r :: post ∧ r.length2 < sh.length2 ∧ ∀ v ∈ pre, r.length2 < v.length2) := by
  induction s with
  | nil => intro sh; exact ⟨sh, rfl, Or.inl rfl, le_rfl, by simp, Or.inl ⟨rfl, by simp⟩⟩
  | cons v s ih =>
    intro sh
    simp only [Vec2Array.shortestLoop]
    by_cases h : v.length2 < sh.length2
    · obtain ⟨r, hr, hm, hle, hall, hfirst⟩ := ih v
      refine ⟨r, by simp [h, hr], ?_, hle.trans h.le, ?_, ?_⟩
      · right; rcases hm with rfl | hm <;> simp [*]
      · intro w hw
        rcases List.mem_cons.mp hw with rfl | hw
        · exact hle
        · exact hall w hw
      · right
        rcases hfirst with ⟨rfl, -⟩ | ⟨pre, post, hs, hlt, hpre⟩
        · exact ⟨[], s, rfl, h, by simp⟩
        · refine ⟨v :: pre, post, by rw [hs]; rfl, hlt.trans h, ?_⟩
          intro w hw
          rcases List.mem_cons.mp hw with rfl | hw
          · exact hlt
          · exact hpre w hw
    · obtain ⟨r, hr, hm, hle, hall, hfirst⟩ := ih sh
      refine ⟨r, by simp [h, hr], ?_, hle, ?_, ?_⟩
      · rcases hm with rfl | hm <;> simp [*]
      · intro w hw
        rcases List.mem_cons.mp hw with rfl | hw
        · exact hle.trans (not_lt.mp h)
        · exact hall w hw
      · rcases hfirst with ⟨rfl, hmin⟩ | ⟨pre, post, hs, hlt, hpre⟩
        · left
          refine ⟨rfl, ?_⟩
          intro w hw
          rcases List.mem_cons.mp hw with rfl | hw
          · exact not_lt.mp h
          · exact hmin w hw
        · right
          refine ⟨v :: pre, post, by rw [hs]; rfl, hlt, ?_⟩
          intro w hw
          rcases List.mem_cons.mp hw with rfl | hw
          · exact lt_of_lt_of_le hlt (not_lt.mp h)
          · exact hpre w hw

/-- `r` is the first element of `s` with minimum length (specification). -/
def FirstShortest (s : Vecs K) (r : Vec2 K) : Prop :=
  ∃ pre post, s = pre ++ r :: post ∧ (∀ v ∈ s, r.length2 ≤ v.length2) ∧ ∀ v ∈ pre, r.length2 < v.length2

/-- `r` is the first element of `s` with maximum length (specification). -/
def FirstLongest (s : Vecs K) (r : Vec2 K) : Prop :=
  ∃ pre post, s = pre ++ r :: post ∧ (∀ v ∈ s, v.length2 ≤ r.length2) ∧ ∀ v ∈ pre, v.length2 < r.length2

/-- **C31** `shortest()` is the first shortest element, or None for an empty array. -/
theorem C31_shortest (s : Vecs K) :
    (s = [] → Vec2Array.shortest s = none) ∧
    (s ≠ [] → ∃ r, Vec2Array.shortest s = some r ∧ FirstShortest s r) := by
  constructor
  · rintro rfl; rfl
  · intro h
    obtain ⟨v, s, rfl⟩ := List.exists_cons_of_ne_nil h
    obtain ⟨r, hr, -, hle, hall, hfirst⟩ := shortestLoop_spec (v :: s) v
    refine ⟨r, by simp only [Vec2Array.shortest, hr], ?_⟩
    rcases hfirst with ⟨rfl, hmin⟩ | ⟨pre, post, hs, hlt, hpre⟩
    · exact ⟨[], s, rfl, hmin, by simp⟩
    · exact ⟨pre, post, hs, hall, hpre⟩

theorem longestLoop_spec (s : Vecs K) : ∀ (cur : Option (Vec2 K)) (m : K),
    (Vec2Array.longestLoop s cur m = cur ∧ ∀ v ∈ s, v.length2 ≤ m) ∨
    (∃ r pre post, Vec2Array.longestLoop s cur m = some r ∧ s = pre ++ r :: post ∧ m < r.length2 ∧
      (∀ v ∈ s, v.length2 ≤ r.length2) ∧ ∀ v ∈ pre, v.length2 < r.length2) := by
  induction s with
  | nil => intro cur m; left; exact ⟨rfl, by simp⟩
  | cons v s ih =>
    intro cur m
    simp only [Vec2Array.longestLoop]
    by_cases h : v.length2 > m
    · simp only [h, if_true]
      right
      rcases ih (some v) v.length2 with ⟨h1, h2⟩ | ⟨r, pre, post, h1, h2, h3, h4, h5⟩
      · refine ⟨v, [], s, h1, rfl, h, ?_, by simp⟩
        intro w hw
        rcases List.mem_cons.mp hw with rfl | hw
        · exact le_rfl
        · exact h2 w hw
      · refine ⟨r, v :: pre, post, h1, by rw [h2]; rfl, h.lt.trans h3, ?_, ?_⟩
        · intro w hw
          rcases List.mem_cons.mp hw with rfl | hw
          · exact h3.le
          · exact h4 w hw
        · intro w hw
          rcases List.mem_cons.mp hw with rfl | hw
          · exact h3
          · exact h5 w hw
    · simp only [h, if_false]
      rcases ih cur m with ⟨h1, h2⟩ | ⟨r, pre, post, h1, h2, h3, h4, h5⟩
      · left
        refine ⟨h1, ?_⟩
        intro w hw
        rcases List.mem_cons.mp hw with rfl | hw
        · exact not_lt.mp h
        · exact h2 w hw
      · right
        refine ⟨r, v :: pre, post, h1, by rw [h2]; rfl, h3, ?_, ?_⟩
        · intro w hw
          rcases List.mem_cons.mp hw with rfl | hw
          · exact (not_lt.mp h).trans h3.le
          · exact h4 w hw
        · intro w hw
          rcases List.mem_cons.mp hw with rfl | hw
          · exact lt_of_le_of_lt (not_lt.mp h) h3
          · exact h5 w hw

section Field
variable {K : Type} [Field K] [LinearOrder K] [IsStrictOrderedRing K]

/-- **C31** (partial) `longest()` is the first longest element whenever some element is not the null vector, and None for an
empty array. For a non-empty array of null vectors it is None as well, see `C31_longest_violated`. -/
theorem C31_longest_partial (s : Vecs K) :
    (s = [] → Vec2Array.longest s = none) ∧
    ((∃ v ∈ s, v ≠ Vec2.null) → ∃ r, Vec2Array.longest s = some r ∧ FirstLongest s r) := by
  constructor
  · rintro rfl; rfl
  · rintro ⟨v, hv, hne⟩
    rcases longestLoop_spec s none 0 with ⟨-, h2⟩ | ⟨r, pre, post, h1, h2, -, h4, h5⟩
    · exact absurd (h2 v hv) (not_le.mpr (length2_pos hne))
    · exact ⟨r, h1, pre, post, h2, h4, h5⟩

end Field

/-- **C31** is violated: for every non-empty array of null vectors `longest()` is None instead of a member. -/
theorem C31_longest_violated (n : Nat) :
    Vec2Array.longest (List.replicate (n + 1) (Vec2.null : Vec2 K)) = none := by
  rcases longestLoop_spec (List.replicate (n + 1) (Vec2.null : Vec2 K)) none 0 with
    ⟨h1, -⟩ | ⟨r, pre, post, h1, h2, h3, -⟩
  · exact h1
  · exfalso
    have : r ∈ List.replicate (n + 1) (Vec2.null : Vec2 K) := by rw [h2]; simp
    rw [List.mem_replicate] at this
    rw [this.2] at h3
    simp [Vec2.length2, f_mul_zero, f_add_zero] at h3

/-! ### C32 -/

/-- **C32** (partial) the two operand orders agree unless the array has exactly two elements. -/
theorem C32_commute_partial (v : Vec2 K) (a : Vecs K) (h : a.length ≠ 2) :
    vecAddArr v a = arrAddVec a v ∧ vecMulArr v a = arrMulVec a v ∧
    ∃ out, arrAddVec a v = .ok (.arr out) ∧ EachElement (fun w => w + v) a out := by
  have h3 : ∃ out, arrAddVec a v = .ok (.arr out) ∧ EachElement (fun w => w + v) a out :=
    ⟨a.map (fun w => w + v), by simp [arrAddVec, Vec2Array.add], map_each _ a⟩
  refine ⟨?_, ?_, h3⟩
  · rcases a with _ | ⟨p, _ | ⟨q, _ | ⟨r, a⟩⟩⟩ <;> simp_all [vecAddArr, arrAddVec]
  · rcases a with _ | ⟨p, _ | ⟨q, _ | ⟨r, a⟩⟩⟩ <;> simp_all [vecMulArr, arrMulVec]

/-- **C32** is violated for every array of two elements: `v + a` raises TypeError while `a + v` is the array of sums, and
`v * a` is a "vector" of two vectors instead of an array. -/
theorem C32_violated (v p q : Vec2 K) :
    vecAddArr v [p, q] = .error .typeError ∧ arrAddVec [p, q] v = .ok (.arr [⟨p.x + v.x, p.y + v.y⟩, ⟨q.x + v.x, q.y + v.y⟩]) ∧
    vecMulArr v [p, q] = .ok (.nested ⟨⟨p.x * v.x, p.y * v.x⟩, ⟨q.x * v.y, q.y * v.y⟩⟩) ∧
    arrMulVec [p, q] v = .ok (.arr [⟨p.x * v.x, p.y * v.y⟩, ⟨q.x * v.x, q.y * v.y⟩]) := by
  refine ⟨by simp [vecAddArr], ?_, ?_, ?_⟩
  · simp only [arrAddVec, Vec2Array.add, Vec2.copy_fl]; rfl
  · rfl
  · simp only [arrMulVec, Vec2Array.mul, Vec2.copy_fl]; rfl

end Rounded

/-! ### C33 -/

/-- **C33** `normalize` and `clamp` store the element-wise results, agree with `normalized()` and `clamped()`, and change
nothing when they raise. -/
theorem C33_clamp_normalize (eps : ℝ) (heps : 0 ≤ eps) (s : Vecs ℝ) (lo hi : Option ℝ) :
    InPlaceAgrees s (Vec2Array.normalized eps s) (Vec2Array.normalize eps s) ∧
    InPlaceAgrees s (Vec2Array.clamped eps s lo hi) (Vec2Array.clamp eps s lo hi) ∧
    (∃ out, Vec2Array.normalized eps s = .ok out ∧ out.length = s.length ∧
      ∀ (i : Nat) v, s[i]? = some v → ∃ u, v.normalized eps = .ok u ∧ out[i]? = some u) ∧
    (∀ out, Vec2Array.clamped eps s lo hi = .ok out → out.length = s.length ∧
      ∀ (i : Nat) v, s[i]? = some v → ∃ u, v.clamped eps lo hi = .ok u ∧ out[i]? = some u) ∧
    ((∃ e, Vec2Array.clamped eps s lo hi = .error e) ↔
      (∃ l, lo = some l ∧ l < 0) ∨ (s ≠ [] ∧ ∃ l h, lo = some l ∧ hi = some h ∧ h < l)) ∧
    (∀ e, Vec2Array.clamped eps s lo hi = .error e → e = .valueError) := by
  have hneg : Vec2Array.negMin lo = true ↔ ∃ l, lo = some l ∧ l < 0 := by
    rcases lo with _ | l <;> simp [Vec2Array.negMin]
  have hcl : ∀ v : Vec2 ℝ, v ∈ s → ((∃ e, v.clamped eps lo hi = .error e) ↔ ∃ l h, lo = some l ∧ hi = some h ∧ h < l) :=
    fun v _ => (C04_clamped_error eps heps v lo hi).1
  refine ⟨?_, ?_, ?_, ?_, ?_, ?_⟩
  · unfold Vec2Array.normalized Vec2Array.normalize InPlaceAgrees
    cases s.mapM (Vec2.normalized eps) <;> rfl
  · unfold Vec2Array.clamped Vec2Array.clamp InPlaceAgrees
    by_cases hn : Vec2Array.negMin lo = true
    · simp [hn]
    · simp only [hn, Bool.false_eq_true, if_false]
      cases s.mapM (fun v => Vec2.clamped eps v lo hi) <;> rfl
  · rcases hm : s.mapM (Vec2.normalized eps) with e | out
    · exfalso
      obtain ⟨v, -, hv⟩ := mapM_error _ _ _ hm
      rcases lt_or_ge eps v.length with h | h
      · obtain ⟨u, hu, -⟩ := (C03_normalized eps heps v).1 h
        rw [hu] at hv; cases hv
      · rw [(C03_normalized eps heps v).2 h] at hv; cases hv
    · exact ⟨out, hm, (mapM_ok_iff _ _ _).mp hm⟩
  · intro out h
    unfold Vec2Array.clamped at h
    by_cases hn : Vec2Array.negMin lo = true
    · simp [hn] at h
    · simp only [hn, Bool.false_eq_true, if_false] at h
      exact (mapM_ok_iff _ _ _).mp h
  · unfold Vec2Array.clamped
    by_cases hn : Vec2Array.negMin lo = true
    · simp only [hn, if_true]
      exact ⟨fun _ => Or.inl (hneg.mp hn), fun _ => ⟨_, rfl⟩⟩
    · simp only [hn, Bool.false_eq_true, if_false]
      have hn' : ¬ ∃ l, lo = some l ∧ l < 0 := fun h => hn (hneg.mpr h)
      constructor
      · rintro ⟨e, he⟩
        obtain ⟨v, hv, hv'⟩ := mapM_error _ _ _ he
        right
        exact ⟨by rintro rfl; simp at hv, (hcl v hv).mp ⟨e, hv'⟩⟩
      · rintro (h | ⟨hne, h⟩)
        · exact absurd h hn'
        · obtain ⟨v, s, rfl⟩ := List.exists_cons_of_ne_nil hne
          obtain ⟨e, he⟩ := (hcl v List.mem_cons_self).mpr h
          exact ⟨e, by rw [List.mapM_cons, he]; rfl⟩
  · intro e h
    unfold Vec2Array.clamped at h
    by_cases hn : Vec2Array.negMin lo = true
    · simp only [hn, if_true] at h; cases h; rfl
    · simp only [hn, Bool.false_eq_true, if_false] at h
      obtain ⟨v, hv, hv'⟩ := mapM_error _ _ _ h
      exact (C04_clamped_error eps heps v lo hi).2 e hv'

end Planar
