import Verif.Lemmas.CostHull
/- C88: how long the convex hull takes. Steps are counted by the counted versions of the functions in Model/Cost. -/
set_option linter.unusedSectionVars false
namespace Planar
open Polygon Hull
variable {K : Type} [Add K] [Sub K] [Mul K] [Div K] [Neg K] [Zero K] [One K] [BEq K] [LT K] [LE K]
  [DecidableLT K] [DecidableLE K]

/-- The list computed by the hull has at most `3 n + 2` entries. -/
theorem quickHull_length (order : List (Vec2 K) → List (Vec2 K)) (ho : ∀ l, (order l).Perm l) (pts h : List (Vec2 K))
    (hh : quickHull order pts = .ok h) : h.length ≤ 3 * pts.length + 2 := by
  unfold quickHull at hh
  cases pts with
  | nil => simp at hh
  | cons p ps =>
    simp only at hh
    generalize extremes p (p :: ps) = lr at hh
    have hU := pySet_length order ho (List.filter (fun q => decide ((lr.2.x - lr.1.x) * (q.y - lr.1.y) -
      (q.x - lr.1.x) * (lr.2.y - lr.1.y) > 0)) (p :: ps)) [lr.1, lr.2]
    have hL := pySet_length order ho (List.filter (fun q => !decide ((lr.2.x - lr.1.x) * (q.y - lr.1.y) -
      (q.x - lr.1.x) * (lr.2.y - lr.1.y) > 0)) (p :: ps)) [lr.1, lr.2]
    have hs := List.length_eq_length_filter_add (l := p :: ps) (fun q => decide ((lr.2.x - lr.1.x) * (q.y - lr.1.y) -
      (q.x - lr.1.x) * (lr.2.y - lr.1.y) > 0))
    generalize Hull.pySet order (List.filter (fun q => decide ((lr.2.x - lr.1.x) * (q.y - lr.1.y) -
      (q.x - lr.1.x) * (lr.2.y - lr.1.y) > 0)) (p :: ps)) [lr.1, lr.2] = U at hU hh
    generalize Hull.pySet order (List.filter (fun q => !decide ((lr.2.x - lr.1.x) * (q.y - lr.1.y) -
      (q.x - lr.1.x) * (lr.2.y - lr.1.y) > 0)) (p :: ps)) [lr.1, lr.2] = L at hL hh
    generalize p :: ps = pts at *
    have half : ∀ (l : List (Vec2 K)) (a b : Vec2 K) (r : List (Vec2 K)),
        partitionPoints l a b = .ok r → r.length ≤ 3 * l.length + 1 := by
      intro l a b r hr
      have := partitionPoints_length l a b r hr; omega
    have A := half U lr.1 lr.2
    have B := half L lr.2 lr.1
    simp only [bind, Except.bind, pure, Except.pure] at hh
    generalize partitionPoints U lr.1 lr.2 = X at A hh
    generalize partitionPoints L lr.2 lr.1 = Y at B hh
    by_cases hu : U.isEmpty = true <;> by_cases hl : L.isEmpty = true <;>
      simp only [hu, hl, if_true, if_false, Bool.false_eq_true] at hh
    · injection hh with hh; subst hh; simp
    · rcases Y with e | y
      · simp at hh
      simp only [Except.ok.injEq] at hh
      subst hh
      have b := B y rfl
      simp only [List.length_append, List.length_singleton]
      omega
    · rcases X with e | x
      · simp at hh
      simp only [Except.ok.injEq] at hh
      subst hh
      have a := A x rfl
      simp only [List.length_append, List.length_singleton]
      omega
    · rcases X with e | x
      · simp at hh
      rcases Y with e | y
      · simp at hh
      simp only [Except.ok.injEq] at hh
      subst hh
      have a := A x rfl
      have b := B y rfl
      rw [List.length_append]
      omega

/-- **C88** the counted hull gives the answers and raises the exceptions of the uncounted one. -/
theorem C88_same_answers (order : List (Vec2 K) → List (Vec2 K)) (pts : List (Vec2 K)) :
    (convexHullC order pts).val = convexHull order pts := convexHullC_val order pts

/-- **C88** the hull of `n` points takes at most `n (13 log2 n + 29)` steps, for every list of points (in any order, with
any repetitions, with coordinates of any kind: nothing is assumed of the arithmetic or the comparisons), and whatever the
order in which sets are iterated over. -/
theorem C88_worst_case (order : List (Vec2 K) → List (Vec2 K)) (ho : ∀ l, (order l).Perm l) (pts : List (Vec2 K)) :
    ((convexHullC order pts).steps : ℝ) ≤ pts.length * (13 * Real.logb 2 pts.length + 29) := by
  rcases Nat.eq_zero_or_pos pts.length with h0 | hpos
  · rw [List.length_eq_zero_iff] at h0
    subst h0
    simp [convexHullC, quickHullC]
  have h1 := quickHullC_steps order ho pts
  have hn : (1 : ℝ) ≤ pts.length := by exact_mod_cast hpos
  have e : lg pts.length = Real.logb 2 pts.length := rfl
  rw [e] at h1
  unfold convexHullC
  rw [andThen_steps, quickHullC_val]
  rcases hq : quickHull order pts with er | h
  · simp only [ret_steps, Nat.add_zero]
    refine h1.trans (mul_le_mul_of_nonneg_left (by linarith) (by linarith))
  · have hl := quickHull_length order ho pts h hq
    have hsp := splitYPolylines_length (h.map Vec2.copy)
    simp only [List.length_map] at hsp
    have : h.length + (splitYPolylinesC (h.map Vec2.copy)).steps ≤ 17 * pts.length := by
      simp only [splitYPolylinesC, tick_steps, ret_steps, List.length_map]
      omega
    simp only [tick_steps, ret_steps]
    have hr : ((0 + (h.length + (splitYPolylinesC (h.map Vec2.copy)).steps) : ℕ) : ℝ) ≤ 17 * pts.length := by
      rw [Nat.zero_add]; exact_mod_cast this
    rw [Nat.cast_add]
    nlinarith

/-- A set iterated over in the order of insertion, and backwards. -/
example : (∀ l : List (Vec2 ℚ), (id l).Perm l) ∧ (∀ l : List (Vec2 ℚ), (List.reverse l).Perm l) :=
  ⟨fun l => List.Perm.refl l, fun l => List.reverse_perm l⟩

end Planar
