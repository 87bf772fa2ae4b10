import Verif.Props.ConvexContains
import Verif.Props.Region
/- Property C51: rectangles listed anticlockwise from the lower left corner. -/
set_option linter.unusedSectionVars false
namespace Planar
open Spec
open Polygon
variable {K : Type} [Field K] [LinearOrder K] [IsStrictOrderedRing K]

theorem rect_split {x0 x1 y0 y1 : K} (hx : x0 < x1) (hy : y0 < y1) :
    splitYPolylines [⟨x0, y0⟩, ⟨x1, y0⟩, ⟨x1, y1⟩, ⟨x0, y1⟩] = ([(y0, x0), (y0, x1), (y1, x1)], [(y0, x0), (y1, x0), (y1, x1)]) := by
  have he : yExtremes [⟨x0, y0⟩, ⟨x1, y0⟩, ⟨x1, y1⟩, (⟨x0, y1⟩ : Vec2 K)] = ⟨y0, y1, x0, x1, 0, 2, 0, 1⟩ := by
    have n0 : nth [⟨x0, y0⟩, ⟨x1, y0⟩, ⟨x1, y1⟩, (⟨x0, y1⟩ : Vec2 K)] 0 = ⟨x0, y0⟩ := rfl
    unfold yExtremes
    simp only [n0, List.length_cons, List.length_nil, List.range_succ, List.range_zero, List.nil_append, List.cons_append,
      List.zip_cons_cons, List.zip_nil_right, List.foldl_cons, List.foldl_nil]
    simp [yExtStep, hx, hy, hx.le, hy.le, not_lt.mpr hx.le, not_lt.mpr hy.le]
  unfold splitYPolylines
  rw [he]
  simp [upward, hy, not_lt.mpr hy.le]

/-- **C51** is false already for every rectangle listed anticlockwise from its lower left corner: once it is known (or
declared) to be convex, `contains_point` is False for every point. -/
theorem C51_rectangle_violated (eps x0 x1 y0 y1 : K) (hx : x0 < x1) (hy : y0 < y1) (s : Polygon K)
    (h : Polygon.new [⟨x0, y0⟩, ⟨x1, y0⟩, ⟨x1, y1⟩, ⟨x0, y1⟩] (some true) none = .ok s) (p : Vec2 K) :
    (s.containsPoint eps (.vec p)).1 = .ok false ∧
      (x0 < p.x → p.x < x1 → y0 < p.y → p.y < y1 → winding s.verts p ≠ 0) := by
  rw [new_eq _ _ _ (by simp)] at h
  injection h with h
  subst h
  constructor
  · unfold containsPoint
    simp only [cleared, List.length_cons, List.length_nil, Nat.reduceAdd, Nat.reduceLT, Nat.reduceEqDiff, if_false, and_self, if_true, rect_split hx hy]
    simp only [pnpYMonotone, PyPoint.toVec]
    have hA : (bisectRight [(y0, x0), (y0, x1), (y1, x1)] p.y = 0 ∨ bisectRight [(y0, x0), (y0, x1), (y1, x1)] p.y = 3) ∨
        (bisectRight [(y0, x0), (y0, x1), (y1, x1)] p.y = 2 ∧ bisectRight [(y0, x0), (y1, x0), (y1, x1)] p.y = 1) := by
      obtain ⟨a1, a2, a3⟩ := bisect_spec [(y0, x0), (y0, x1), (y1, x1)] p.y
      obtain ⟨b1, b2, b3⟩ := bisect_spec [(y0, x0), (y1, x0), (y1, x1)] p.y
      generalize bisectRight [(y0, x0), (y0, x1), (y1, x1)] p.y = A at *
      generalize bisectRight [(y0, x0), (y1, x0), (y1, x1)] p.y = B at *
      simp only [List.length_cons, List.length_nil] at a1 b1
      have hA : A = 0 ∨ A = 1 ∨ A = 2 ∨ A = 3 := by omega
      have hB : B = 0 ∨ B = 1 ∨ B = 2 ∨ B = 3 := by omega
      rcases hA with rfl | rfl | rfl | rfl
      · exact .inl (.inl rfl)
      · have := a2 0 _ rfl rfl
        have := a3 _ rfl
        simp only at *
        linarith
      · have g1 := a2 1 _ rfl rfl
        have g2 := a3 _ rfl
        simp only at g1 g2
        rcases hB with rfl | rfl | rfl | rfl
        · have := b3 _ rfl; simp only at this; linarith
        · exact .inr ⟨rfl, rfl⟩
        · have := b2 1 _ rfl rfl; simp only at this; linarith
        · have := b2 2 _ rfl rfl; simp only at this; linarith
      · exact .inl (.inr rfl)
    rcases hA with hA | ⟨hA, hB⟩
    · rcases hA with hA | hA <;> simp [hA]
    · simp only [hA, hB]
      have g1 : pyGet [(y0, x0), (y0, x1), (y1, x1)] (((2 : ℕ) : ℤ) - 1) = .ok (y0, x1) := rfl
      have g2 : pyGet [(y0, x0), (y0, x1), (y1, x1)] ((2 : ℕ) : ℤ) = .ok (y1, x1) := rfl
      have g3 : pyGet [(y0, x0), (y1, x0), (y1, x1)] (((1 : ℕ) : ℤ) - 1) = .ok (y0, x0) := rfl
      have g4 : pyGet [(y0, x0), (y1, x0), (y1, x1)] ((1 : ℕ) : ℤ) = .ok (y1, x0) := rfl
      simp only [g1, g2, g3, g4, bind, Except.bind, pure, Except.pure, List.length_cons, List.length_nil]
      norm_num
      intro hpx
      have : x1 ≤ p.x := by nlinarith
      nlinarith
  · intro h1 h2 h3 h4
    apply winding_of_left (by simp [cleared])
    simp only [cleared, edges, edgesFrom, List.getLast?_cons_cons, List.getLast?_singleton]
    intro e he
    simp only [List.mem_cons, List.not_mem_nil, or_false] at he
    rcases he with rfl | rfl | rfl | rfl <;> simp only [side] <;> nlinarith

/-- The unit square with its lower left corner in the origin: it does not contain its centre. -/
example : ∃ s : Polygon ℚ, Polygon.new [⟨0, 0⟩, ⟨1, 0⟩, ⟨1, 1⟩, (⟨0, 1⟩ : Vec2 ℚ)] (some true) none = .ok s ∧
    (s.containsPoint (1/100000) (.vec ⟨1/2, 1/2⟩)).1 = .ok false :=
  ⟨_, rfl, (C51_rectangle_violated (1/100000) 0 1 0 1 (by norm_num) (by norm_num) _ rfl ⟨1/2, 1/2⟩).1⟩

end Planar
