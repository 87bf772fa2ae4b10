import Verif.Model.Polygon
import Verif.Lemmas.Basic
import Verif.Spec.Polygon
import Mathlib.Data.List.Rotate
import Mathlib.Algebra.BigOperators.Group.List.Basic
/- Facts about indices, cyclic edges and sums over edges. -/
set_option linter.unusedSectionVars false
namespace Planar
open Spec
variable {K : Type}

/-! ### edges -/
section Edges

@[simp] theorem edgesFrom_nil (a : Vec2 K) : edgesFrom a [] = [] := rfl
@[simp] theorem edgesFrom_cons (a b : Vec2 K) (l : List (Vec2 K)) : edgesFrom a (b :: l) = (a, b) :: edgesFrom b l := rfl

theorem edgesFrom_length (a : Vec2 K) (l : List (Vec2 K)) : (edgesFrom a l).length = l.length := by
  induction l generalizing a with
  | nil => rfl
  | cons b l ih => simp [ih]

theorem edgesFrom_append (a : Vec2 K) (l m : List (Vec2 K)) :
    edgesFrom a (l ++ m) = edgesFrom a l ++ edgesFrom ((a :: l).getLast (by simp)) m := by
  induction l generalizing a with
  | nil => simp
  | cons b l ih => simp [ih]

theorem edges_cons (v : Vec2 K) (t : List (Vec2 K)) :
    edges (v :: t) = ((v :: t).getLast (by simp), v) :: edgesFrom v t := by
  simp [edges, List.getLast?_eq_some_getLast]

theorem edges_snoc (v : Vec2 K) (t : List (Vec2 K)) : edges (t ++ [v]) = edgesFrom v (t ++ [v]) := by
  simp [edges]

theorem edges_ne_nil {vs : List (Vec2 K)} (h : vs ≠ []) :
    edges vs = edgesFrom (vs.getLast h) vs := by
  simp [edges, List.getLast?_eq_some_getLast h]

theorem edges_length (vs : List (Vec2 K)) : (edges vs).length = vs.length := by
  by_cases h : vs = []
  · subst h; rfl
  · rw [edges_ne_nil h, edgesFrom_length]

/-- Turning the list of vertices turns the list of edges. -/
theorem edges_rotate_one (v : Vec2 K) (t : List (Vec2 K)) :
    edges (t ++ [v]) = edgesFrom v t ++ [((v :: t).getLast (by simp), v)] := by
  rw [edges_snoc, edgesFrom_append]; simp

theorem edges_rotate_perm (vs : List (Vec2 K)) (k : Nat) : (edges (vs.rotate k)).Perm (edges vs) := by
  induction k with
  | zero => simp
  | succ k ih =>
    rw [← List.rotate_rotate]
    refine List.Perm.trans ?_ ih
    generalize vs.rotate k = l
    rcases l with _ | ⟨v, t⟩
    · simp
    · rw [List.rotate_cons_succ, List.rotate_zero, edges_rotate_one, edges_cons]
      exact List.perm_append_singleton _ _

theorem edgesFrom_reverse (a b : Vec2 K) (l : List (Vec2 K)) :
    edgesFrom b (l.reverse ++ [a]) = ((edgesFrom a (l ++ [b])).map Prod.swap).reverse := by
  induction l generalizing a with
  | nil => simp
  | cons c l ih =>
    rw [List.reverse_cons, edgesFrom_append, ih c]
    simp

theorem edges_reverse_perm (vs : List (Vec2 K)) : (edges vs.reverse).Perm ((edges vs).map Prod.swap) := by
  rcases vs with _ | ⟨v, t⟩
  · exact List.Perm.refl _
  · rw [List.reverse_cons, edges_snoc, edgesFrom_reverse]
    refine (List.reverse_perm _).trans ?_
    refine List.Perm.map _ ?_
    rw [← edges_snoc, edges_rotate_one, edges_cons]
    exact List.perm_append_singleton _ _

theorem edgesFrom_map (f : Vec2 K → Vec2 K) (a : Vec2 K) (l : List (Vec2 K)) :
    edgesFrom (f a) (l.map f) = (edgesFrom a l).map fun e => (f e.1, f e.2) := by
  induction l generalizing a with
  | nil => rfl
  | cons b l ih => simp [ih]

theorem edges_map (f : Vec2 K → Vec2 K) (vs : List (Vec2 K)) :
    edges (vs.map f) = (edges vs).map fun e => (f e.1, f e.2) := by
  by_cases h : vs = []
  · subst h; rfl
  · rw [edges_ne_nil h, edges_ne_nil (by simpa using h), ← edgesFrom_map]
    congr 1
    rw [List.getLast_map]

theorem edgesFrom_mem {a : Vec2 K} {l : List (Vec2 K)} {e : Vec2 K × Vec2 K} (h : e ∈ edgesFrom a l) :
    e.1 ∈ a :: l ∧ e.2 ∈ l := by
  induction l generalizing a with
  | nil => simp at h
  | cons b l ih =>
    rcases List.mem_cons.mp h with rfl | h
    · simp
    · obtain ⟨h1, h2⟩ := ih h
      exact ⟨List.mem_cons_of_mem _ h1, List.mem_cons_of_mem _ h2⟩

theorem edges_mem {vs : List (Vec2 K)} {e : Vec2 K × Vec2 K} (h : e ∈ edges vs) : e.1 ∈ vs ∧ e.2 ∈ vs := by
  by_cases hv : vs = []
  · subst hv; simp [edges] at h
  · rw [edges_ne_nil hv] at h
    obtain ⟨h1, h2⟩ := edgesFrom_mem h
    refine ⟨?_, h2⟩
    rcases List.mem_cons.mp h1 with h1 | h1
    · rw [h1]; exact List.getLast_mem hv
    · exact h1

/-- A telescoping sum over an open path. -/
theorem sum_edgesFrom_telescope {M : Type} [AddCommGroup M] (g : Vec2 K → M) (a : Vec2 K) (l : List (Vec2 K)) :
    ((edgesFrom a l).map fun e => g e.2 - g e.1).sum = g ((a :: l).getLast (by simp)) - g a := by
  induction l generalizing a with
  | nil => simp
  | cons b l ih =>
    rw [edgesFrom_cons, List.map_cons, List.sum_cons, ih]
    simp

/-- A telescoping sum over a closed path is zero. -/
theorem sum_edges_telescope {M : Type} [AddCommGroup M] (g : Vec2 K → M) (vs : List (Vec2 K)) :
    ((edges vs).map fun e => g e.2 - g e.1).sum = 0 := by
  by_cases h : vs = []
  · subst h; simp [edges]
  · rw [edges_ne_nil h, sum_edgesFrom_telescope]
    rcases vs with _ | ⟨v, t⟩
    · exact absurd rfl h
    · rw [List.getLast_cons (by simp)]; simp

/-- An edge of an open path, by position. -/
theorem edgesFrom_getElem (a : Vec2 K) (l : List (Vec2 K)) (i : Nat) (h : i < (edgesFrom a l).length) :
    (edgesFrom a l)[i] = ((a :: l)[i]'(by rw [edgesFrom_length] at h; simp; omega),
      l[i]'(by rw [edgesFrom_length] at h; exact h)) := by
  induction l generalizing a i with
  | nil => simp at h
  | cons b l ih =>
    cases i with
    | zero => simp
    | succ i => simp only [edgesFrom_cons, List.getElem_cons_succ, ih]

end Edges

/-! ### indices -/
section Nth
variable [Zero K]

theorem nth_ofNat (l : List (Vec2 K)) (i : Nat) (h : i < l.length) : Polygon.nth l (i : Int) = l[i] := by
  have h2 : pyIndex l.length (i : Int) = some i := by simp [pyIndex, h]
  simp only [Polygon.nth, pyGet, h2, List.getElem?_eq_getElem h]

theorem nth_zero (l : List (Vec2 K)) (h : 0 < l.length) : Polygon.nth l 0 = l[0] := nth_ofNat l 0 h

theorem nth_neg (l : List (Vec2 K)) (k : Nat) (h1 : 1 ≤ k) (h2 : k ≤ l.length) :
    Polygon.nth l (-(k : Int)) = l[l.length - k] := by
  have hi : pyIndex l.length (-(k : Int)) = some (l.length - k) := by
    have : ¬ (0 : Int) ≤ -(k : Int) := by omega
    simp [pyIndex, this, h2]
    omega
  simp only [Polygon.nth, pyGet, hi, List.getElem?_eq_getElem (show l.length - k < l.length by omega)]

theorem nth_neg_one (l : List (Vec2 K)) (h : l ≠ []) : Polygon.nth l (-1) = l.getLast h := by
  have := nth_neg l 1 le_rfl (List.length_pos_iff.mpr h)
  rw [List.getLast_eq_getElem]; exact this

theorem nth_pred (l : List (Vec2 K)) (i : Nat) (h : i + 1 < l.length) :
    Polygon.nth l (((i + 1 : Nat) : Int) - 1) = l[i] := by
  have : (((i + 1 : Nat) : Int) - 1) = (i : Int) := by push_cast; ring
  rw [this]; exact nth_ofNat l i (by omega)

/-- The pairs `(self[i-1], self[i])` for `i` in `range(len(self))` are the edges. -/
theorem range_map_edges (l : List (Vec2 K)) :
    (List.range l.length).map (fun (i : Nat) => (Polygon.nth l ((i : Int) - 1), Polygon.nth l i)) = edges l := by
  apply List.ext_getElem
  · simp [edges_length]
  · intro i h1 h2
    simp only [List.length_map, List.length_range] at h1
    have hne : l ≠ [] := by rintro rfl; simp at h1
    have he := edges_ne_nil hne
    simp only [List.getElem_map, List.getElem_range, he]
    rw [edgesFrom_getElem]
    cases i with
    | zero =>
      simp only [List.getElem_cons_zero]
      exact Prod.ext (nth_neg_one l hne) (nth_ofNat l 0 h1)
    | succ i =>
      simp only [List.getElem_cons_succ]
      exact Prod.ext (nth_pred l i h1) (nth_ofNat l (i + 1) h1)

end Nth
end Planar
