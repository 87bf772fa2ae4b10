import Verif.Props.Affine
import Verif.Props.PolyState
/- Property C14: the order in which products of transforms apply. -/
set_option linter.unusedSectionVars false
namespace Planar
open Planar.Affine

section order
variable {K : Type} [Field K] [LinearOrder K] [IsStrictOrderedRing K]

/-- **C14** (partial) the effect of a product is that of its factors from left to right exactly when the translations agree. -/
theorem C14_reversed_partial (A B : Affine K) :
    (∀ p, (A * B).apply p = B.apply (A.apply p)) ↔
      (A.a * B.c + A.b * B.f + A.c = A.c * B.a + A.f * B.d + B.c ∧
        A.d * B.c + A.e * B.f + A.f = A.c * B.b + A.f * B.e + B.f) := by
  constructor
  · intro h
    have h0 := h ⟨0, 0⟩
    rw [Vec2.ext_iff'] at h0
    simp [mul] at h0
    obtain ⟨h1, h2⟩ := h0
    exact ⟨by linear_combination h1, by linear_combination h2⟩
  · rintro ⟨h1, h2⟩ p
    ext
    · simp [mul]; linear_combination h1
    · simp [mul]; linear_combination h2

/-- **C14** (partial) without translations, multiplying a polygon in place by any number of transforms, one after the other,
moves its vertices where the product of the transforms, in that order, moves them, whatever happened to the polygon before. -/
theorem C14_in_place_partial (eps : K) (vs : List (Vec2 K)) (ops : List (PolyOp K)) (Ts : List (Affine K))
    (h : ∀ T ∈ Ts, T.c = 0 ∧ T.f = 0) :
    ((Polygon.fromPoints vs).after eps (ops ++ Ts.map .imul)).verts =
      ((Polygon.fromPoints vs).after eps (ops ++ [.imul (Ts.foldl (· * ·) Affine.identity)])).verts := by
  have step : ∀ (ops : List (PolyOp K)) (U : Affine K), ((Polygon.fromPoints vs).after eps (ops ++ [.imul U])).verts =
      ((Polygon.fromPoints vs).after eps ops).verts.map U.apply := by
    intro ops U
    have e : (Polygon.fromPoints vs).after eps (ops ++ [.imul U]) = ((Polygon.fromPoints vs).after eps ops).imul U := by
      simp only [Polygon.after, List.foldl_append]
      rfl
    rw [e]
    exact (C19_polygon eps vs ops U).2
  have lin : ∀ (Ts : List (Affine K)) (A : Affine K), A.c = 0 ∧ A.f = 0 → (∀ T ∈ Ts, T.c = 0 ∧ T.f = 0) →
      (Ts.foldl (· * ·) A).c = 0 ∧ (Ts.foldl (· * ·) A).f = 0 := by
    intro Ts
    induction Ts with
    | nil => exact fun A hA _ => hA
    | cons T Ts ih =>
      intro A hA hT
      obtain ⟨t1, t2⟩ := hT T (by simp)
      exact ih (A * T) (by simp [mul, hA.1, hA.2, t1, t2]) fun U hU => hT U (by simp [hU])
  rw [step]
  induction Ts using List.reverseRecOn with
  | nil =>
    simp only [List.map_nil, List.append_nil, List.foldl_nil]
    rw [Polygon.map_apply_identity]
  | append_singleton Ts T ih =>
    have hTs : ∀ U ∈ Ts, U.c = 0 ∧ U.f = 0 := fun U hU => h U (by simp [hU])
    obtain ⟨t1, t2⟩ := h T (by simp)
    obtain ⟨p1, p2⟩ := lin Ts Affine.identity (by constructor <;> simp [identity, mk']) hTs
    rw [List.map_append, ← List.append_assoc, List.map_singleton, step, ih hTs, List.map_map, List.foldl_append]
    congr 1
    funext p
    have key := (C14_reversed_partial (Ts.foldl (· * ·) Affine.identity) T).mpr (by rw [t1, t2, p1, p2]; constructor <;> ring) p
    exact key.symm

/-- A rotation by a right angle and a scaling that is not uniform: the product applies the rotation first, and the other order
would be another map. -/
example : let R : Affine ℚ := ⟨0, 1, 0, -1, 0, 0⟩; let S : Affine ℚ := ⟨2, 0, 0, 0, 3, 0⟩
    (∀ T ∈ [R, S], T.c = 0 ∧ T.f = 0) ∧ (R * S).apply ⟨1, 2⟩ = S.apply (R.apply ⟨1, 2⟩) ∧
      (R * S).apply ⟨1, 2⟩ ≠ R.apply (S.apply ⟨1, 2⟩) := by
  refine ⟨by simp, ?_, ?_⟩
  · exact (C14_reversed_partial _ _).mpr (by norm_num) _
  · intro h
    have := congrArg Vec2.x h
    norm_num [mul] at this

end order
end Planar
