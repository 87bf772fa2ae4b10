import Verif.Props.LineTransform
import Verif.Props.Seq
/-
C11: what `almost_equals` and `==` measure, for every class that has them.
-/
set_option linter.unusedSectionVars false
namespace Planar

/-- **C11** boxes: both corners within EPSILON. -/
theorem C11_box_distance (eps : ℝ) (heps : 0 ≤ eps) (a b : Box ℝ) :
    (a.almostEquals eps b = true ↔ a.min.distanceTo b.min < eps ∧ a.max.distanceTo b.max < eps) ∧
    ((a == b) = true ↔ a.min = b.min ∧ a.max = b.max) := by
  constructor
  · simp only [Box.almostEquals, Bool.and_eq_true, C11_vec2_distance eps heps]
  · change (a.min == b.min && a.max == b.max) = true ↔ _
    rw [Bool.and_eq_true, beq_iff_eq, beq_iff_eq]

/-- **C11** lines: the offsets and the unit directions within EPSILON. -/
theorem C11_line_distance (eps : ℝ) (heps : 0 ≤ eps) (a b : Line ℝ) :
    (a.almostEquals eps b = true ↔ |a.offset - b.offset| < eps ∧ a.direction.distanceTo b.direction < eps) ∧
    ((a == b) = true ↔ a.offset = b.offset ∧ a.direction = b.direction) := by
  constructor
  · simp only [Line.almostEquals, Bool.and_eq_true, C11_vec2_distance eps heps, pyabs_eq_abs, decide_eq_true_eq]
  · change (a.offset == b.offset && a.direction == b.direction) = true ↔ _
    rw [Bool.and_eq_true, beq_iff_eq, beq_iff_eq]

/-- **C11** rays: the anchors and the unit directions within EPSILON. -/
theorem C11_ray_distance (eps : ℝ) (heps : 0 ≤ eps) (a b : Ray ℝ) :
    (a.almostEquals eps b = true ↔ a.anchor.distanceTo b.anchor < eps ∧ a.direction.distanceTo b.direction < eps) ∧
    ((a == b) = true ↔ a.anchor = b.anchor ∧ a.direction = b.direction) := by
  constructor
  · simp only [Ray.almostEquals, Bool.and_eq_true, C11_vec2_distance eps heps]
  · change (a.anchor == b.anchor && a.direction == b.direction) = true ↔ _
    rw [Bool.and_eq_true, beq_iff_eq, beq_iff_eq]

/-- **C11** segments: the start points and the vectors from start to end within EPSILON; `==` segments have the same
start and end. -/
theorem C11_segment_distance (eps : ℝ) (heps : 0 ≤ eps) (a b : LineSegment ℝ) :
    (a.almostEquals eps b = true ↔
      a.anchor.distanceTo b.anchor < eps ∧ (a.end' - a.anchor).distanceTo (b.end' - b.anchor) < eps) ∧
    ((a == b) = true ↔ a.anchor = b.anchor ∧ a.end' = b.end') := by
  have hv : ∀ s : LineSegment ℝ, s.end' - s.anchor = s.vector := by
    intro s; ext <;> simp [LineSegment.end', LineSegment.vector]
  constructor
  · simp only [LineSegment.almostEquals, Bool.and_eq_true, C11_vec2_distance eps heps, hv]
  · change (a.anchor == b.anchor && a.vector == b.vector) = true ↔ _
    rw [Bool.and_eq_true, beq_iff_eq, beq_iff_eq, ← hv, ← hv]
    constructor
    · rintro ⟨h1, h2⟩
      refine ⟨h1, ?_⟩
      have hx := congrArg Vec2.x h2; have hy := congrArg Vec2.y h2
      simp [h1] at hx hy
      ext <;> assumption
    · rintro ⟨h1, h2⟩; rw [h1, h2]; exact ⟨rfl, rfl⟩

/-- **C11** sequences: the same number of points, and each within EPSILON of its counterpart; `==` is equality of the
points, `!=` its negation. -/
theorem C11_seq (eps : ℝ) (heps : 0 ≤ eps) (s o : Vecs ℝ) :
    (Vec2Array.almostEquals eps s o = true ↔ s.length = o.length ∧
      ∀ (i : Nat) (a b : Vec2 ℝ), s[i]? = some a → o[i]? = some b → a.distanceTo b < eps) ∧
    (Vec2Array.eq s o = true ↔ s = o) ∧ (Vec2Array.ne s o = true ↔ s ≠ o) := by
  refine ⟨?_, by simp [Vec2Array.eq], by simp [Vec2Array.ne]⟩
  simp only [Vec2Array.almostEquals, Bool.and_eq_true, beq_iff_eq, List.all_eq_true]
  refine and_congr_right fun hl => ?_
  constructor
  · intro h i a b ha hb
    have : (a, b) ∈ s.zip o := by
      rw [List.mem_iff_getElem?]
      exact ⟨i, by rw [List.getElem?_zip_eq_some]; exact ⟨ha, hb⟩⟩
    exact (C11_vec2_distance eps heps a b).mp (h _ this)
  · rintro h ⟨a, b⟩ hab
    rw [List.mem_iff_getElem?] at hab
    obtain ⟨i, hi⟩ := hab
    rw [List.getElem?_zip_eq_some] at hi
    exact (C11_vec2_distance eps heps a b).mpr (h i a b hi.1 hi.2)

/-- Witness: two segments from (0,0) with the same direction and different lengths are not almost equal. -/
example (s t : LineSegment ℝ) (hs : LineSegment.new (1/100000) ⟨0, 0⟩ ⟨2, 0⟩ = .ok s)
    (ht : LineSegment.new (1/100000) ⟨0, 0⟩ ⟨3, 0⟩ = .ok t) : s.almostEquals (1/100000) t = false := by
  have l2 : (1/100000 : ℝ) < (⟨2, 0⟩ : Vec2 ℝ).length := by
    rw [lt_length_iff (by norm_num)]; norm_num [Vec2.length2]
  have l3 : (1/100000 : ℝ) < (⟨3, 0⟩ : Vec2 ℝ).length := by
    rw [lt_length_iff (by norm_num)]; norm_num [Vec2.length2]
  obtain ⟨s', h1, _, hsa, hse, _⟩ := (C40_new (1/100000) (by norm_num) (by norm_num) ⟨0, 0⟩ ⟨2, 0⟩).1 (Or.inr l2)
  obtain ⟨t', h2, _, hta, hte, _⟩ := (C40_new (1/100000) (by norm_num) (by norm_num) ⟨0, 0⟩ ⟨3, 0⟩).1 (Or.inr l3)
  rw [hs] at h1; rw [ht] at h2; cases h1; cases h2
  rw [Bool.eq_false_iff, Ne, (C11_segment_distance _ (by norm_num) _ _).1]
  rintro ⟨-, h⟩
  rw [hse, hte, hsa, hta, distanceTo_eq_length, length_lt_iff (by norm_num)] at h
  norm_num [Vec2.length2] at h

end Planar
