import Verif.Lemmas.Rounded
import Verif.Props.PolyState
/- The trigram sets compared by Polygon.__eq__. -/
set_option linter.unusedSectionVars false
namespace Planar
open Spec
open Polygon
variable {K : Type} [LinearOrder K] [Add K] [Sub K] [Mul K] [Div K] [Neg K] [Zero K] [One K] [RoundedArith K]

/-- Three consecutive vertices. -/
abbrev Tri (K : Type) := Vec2 K × Vec2 K × Vec2 K

/-- A trigram with a repetition number. -/
def tag (t : Tri K) (k : Nat) : TGram K := (t.1, t.2.1, t.2.2, k)

theorem tag_inj {t u : Tri K} {k m : Nat} : tag t k = tag u m ↔ t = u ∧ k = m := by
  obtain ⟨a, b, c⟩ := t
  obtain ⟨a', b', c'⟩ := u
  simp [tag, and_assoc]

/-- The trigrams of `ts` numbered by their repetitions, after those of `P`. -/
def nums (P : List (Tri K)) : List (Tri K) → List (TGram K)
  | [] => []
  | t :: ts => tag t (P.count t) :: nums (P ++ [t]) ts

theorem mem_nums (P ts : List (Tri K)) (t : Tri K) (k : Nat) :
    tag t k ∈ nums P ts ↔ P.count t ≤ k ∧ k < P.count t + ts.count t := by
  induction ts generalizing P with
  | nil => simp [nums]
  | cons u ts ih =>
    rw [nums, List.mem_cons, ih, tag_inj, List.count_append, List.count_singleton, List.count_cons]
    by_cases h : u = t
    · subst h; simp; omega
    · have h' : ¬ t = u := fun e => h e.symm
      simp [h, h']

theorem nums_nodup (P ts : List (Tri K)) : (nums P ts).Nodup := by
  induction ts generalizing P with
  | nil => simp [nums]
  | cons u ts ih =>
    rw [nums, List.nodup_cons]
    refine ⟨?_, ih _⟩
    rw [mem_nums, List.count_append]
    simp

theorem nums_length (P ts : List (Tri K)) : (nums P ts).length = ts.length := by
  induction ts generalizing P with
  | nil => rfl
  | cons u ts ih => simp [nums, ih]

theorem nums_append (P ts us : List (Tri K)) : nums P (ts ++ us) = nums P ts ++ nums (P ++ ts) us := by
  induction ts generalizing P with
  | nil => simp [nums]
  | cons u ts ih => simp [nums, ih]

theorem nums_tag (P ts : List (Tri K)) {x : TGram K} (h : x ∈ nums P ts) : ∃ t k, x = tag t k := by
  obtain ⟨a, b, c, k⟩ := x
  exact ⟨(a, b, c), k, rfl⟩

theorem freshGram_spec (E : List (TGram K)) (t : Tri K) (m : Nat) (fuel k : Nat) (hk : k ≤ m) (hf : m ≤ k + fuel)
    (hin : ∀ j, k ≤ j → j < m → tag t j ∈ E) (hout : tag t m ∉ E) : freshGram E t.1 t.2.1 t.2.2 fuel k = tag t m := by
  induction fuel generalizing k with
  | zero =>
    have : k = m := by omega
    subst this; rfl
  | succ fuel ih =>
    rw [freshGram]
    by_cases h : k = m
    · subst h
      have : E.contains (t.1, t.2.1, t.2.2, k) = false := by
        rw [← Bool.not_eq_true, List.contains_iff_mem]; exact hout
      rw [this]; rfl
    · have : E.contains (t.1, t.2.1, t.2.2, k) = true := by
        rw [List.contains_iff_mem]; exact hin k le_rfl (by omega)
      rw [this]
      exact ih (k + 1) (by omega) (by omega) fun j h1 h2 => hin j (by omega) h2

theorem freshGram_nums (P : List (Tri K)) (t : Tri K) :
    freshGram (nums [] P) t.1 t.2.1 t.2.2 ((nums [] P).length + 1) 0 = tag t (P.count t) := by
  apply freshGram_spec
  · omega
  · rw [nums_length]; have := List.count_le_length (a := t) (l := P); omega
  · intro j _ h; rw [mem_nums]; simpa using h
  · rw [mem_nums]; simp

theorem fold_nums (ts P : List (Tri K)) :
    ts.foldl (fun edges t => edges ++ [freshGram edges t.1 t.2.1 t.2.2 (edges.length + 1) 0]) (nums [] P) = nums [] (P ++ ts) := by
  induction ts generalizing P with
  | nil => simp
  | cons t ts ih =>
    rw [List.foldl_cons, freshGram_nums]
    have : nums [] P ++ [tag t (P.count t)] = nums [] (P ++ [t]) := by
      rw [nums_append]; simp [nums]
    rw [this, ih]; simp

/-- The trigrams of a closed path: for every vertex the two vertices before it and itself. -/
def tris (vs : List (Vec2 K)) : List (Tri K) :=
  (List.range vs.length).map fun (i : Nat) => (nth vs ((i : Int) - 2), nth vs ((i : Int) - 1), nth vs i)

/-- A trigram read backwards. -/
def flip3 (t : Tri K) : Tri K := (t.2.2, t.2.1, t.1)

theorem selfEdges_eq (vs : List (Vec2 K)) : selfEdges vs = nums [] (tris vs) := by
  unfold selfEdges
  have := fold_nums (tris vs) ([] : List (Tri K))
  rw [List.nil_append] at this
  rw [← this, tris, List.foldl_map]
  rfl

theorem otherEdges_eq (S : List (TGram K)) (ts P : List (Tri K)) :
    otherEdges S ts (nums [] P) = if ∀ x ∈ nums P ts, x ∈ S then some (nums [] (P ++ ts)) else none := by
  induction ts generalizing P with
  | nil => simp [otherEdges, nums]
  | cons t ts ih =>
    obtain ⟨a, b, c⟩ := t
    rw [otherEdges]
    have hf := freshGram_nums P (a, b, c)
    simp only at hf
    simp only [hf]
    have : nums [] P ++ [tag (a, b, c) (P.count (a, b, c))] = nums [] (P ++ [(a, b, c)]) := by
      rw [nums_append]; simp [nums]
    rw [this, ih]
    by_cases h : tag (a, b, c) (P.count (a, b, c)) ∈ S
    · rw [if_pos (List.contains_iff_mem.mpr h)]
      have : (∀ x ∈ nums P ((a, b, c) :: ts), x ∈ S) ↔ ∀ x ∈ nums (P ++ [(a, b, c)]) ts, x ∈ S := by
        simp only [nums, List.forall_mem_cons, h, true_and]
      simp only [this, List.append_assoc, List.singleton_append]
    · rw [if_neg (by rw [List.contains_iff_mem]; exact h), if_neg]
      intro hall
      exact h (hall _ (by simp [nums]))

theorem nums_subset (S T : List (Tri K)) : (∀ x ∈ nums [] T, x ∈ nums [] S) ↔ ∀ t, T.count t ≤ S.count t := by
  constructor
  · intro h t
    by_contra hc
    have := h (tag t (S.count t)) (by rw [mem_nums]; simp; omega)
    rw [mem_nums] at this
    simp at this
  · intro h x hx
    obtain ⟨t, k, rfl⟩ := nums_tag _ _ hx
    rw [mem_nums] at hx ⊢
    have := h t
    simp at hx ⊢
    omega

theorem hit_iff (S T : List (Tri K)) (hl : T.length = S.length) :
    (match otherEdges (nums [] S) T [] with | some e => setEq (nums [] S) e | none => false) = true ↔ S.Perm T := by
  have h0 := otherEdges_eq (nums [] S) T []
  rw [show (nums [] [] : List (TGram K)) = [] from rfl, List.nil_append] at h0
  rw [h0]
  constructor
  · intro h
    split at h
    next hall =>
      by_cases hs : ∀ x ∈ nums [] T, x ∈ nums [] S
      · rw [nums_subset] at hs
        exact (((List.subperm_ext_iff).mpr fun t _ => hs t).perm_of_length_le (by omega)).symm
      · rw [if_neg hs] at hall; cases hall
    next => cases h
  · intro h
    have h1 : ∀ x ∈ nums [] T, x ∈ nums [] S := by
      rw [nums_subset]; intro t; rw [h.count_eq]
    have h2 : ∀ x ∈ nums [] S, x ∈ nums [] T := by
      rw [nums_subset]; intro t; rw [h.count_eq]
    rw [if_pos h1]
    simp only [setEq, nums_length, hl, beq_self_eq_true, Bool.true_and, List.all_eq_true, List.contains_iff_mem]
    exact h2

/-- Polygon equality compares the trigrams. -/
theorem eq_iff_tris (s o : Polygon K) :
    s.eq o = true ↔ s.verts.length = o.verts.length ∧
      ((tris s.verts).Perm (tris o.verts) ∨ (tris s.verts).Perm ((tris o.verts).map flip3)) := by
  by_cases hl : s.verts.length = o.verts.length
  · by_cases hv : s.verts = o.verts
    · rw [eq_of_verts hv, hv]; simp
    · have hz : ((s.verts.zip o.verts).all fun ab => ab.1 == ab.2) = false := by
        rw [← Bool.not_eq_true, List.all_eq_true]
        intro hall
        apply hv
        apply List.ext_getElem hl
        intro i h1 h2
        have := hall (s.verts[i], o.verts[i]) (by
          rw [List.mem_iff_getElem]
          exact ⟨i, by simp; omega, by simp⟩)
        exact eq_of_beq this
      have hb : (s.verts.length != o.verts.length) = false := by simp [hl]
      have e1 : ((List.range o.verts.length).map fun (i : Nat) =>
          (nth o.verts ((i : Int) - 2), nth o.verts ((i : Int) - 1), nth o.verts i)) = tris o.verts := rfl
      have e2 : ((List.range o.verts.length).map fun (i : Nat) =>
          (nth o.verts i, nth o.verts ((i : Int) - 1), nth o.verts ((i : Int) - 2))) = (tris o.verts).map flip3 := by
        rw [tris, List.map_map]; rfl
      have h1 := hit_iff (tris s.verts) (tris o.verts) (by simp [tris, hl])
      have h2 := hit_iff (tris s.verts) ((tris o.verts).map flip3) (by simp [tris, hl])
      unfold Polygon.eq
      simp only [hb, hz, Bool.false_eq_true, if_false, selfEdges_eq, e1, e2]
      rw [← h1, ← h2]
      simp only [hl, true_and]
      rcases otherEdges (nums [] (tris s.verts)) (tris o.verts) [] with _ | e1 <;>
        rcases otherEdges (nums [] (tris s.verts)) ((tris o.verts).map flip3) [] with _ | e2 <;> simp
  · have : (s.verts.length != o.verts.length) = true := by simpa using hl
    unfold Polygon.eq
    simp [this, hl]

end Planar
