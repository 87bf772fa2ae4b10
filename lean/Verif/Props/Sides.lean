import Verif.Props.LineMore
/- Properties C38 and C40, continued: behind, ahead, left and right cover everything that is not close to the ray or segment,
and contain nothing that is on it. -/
set_option linter.unusedSectionVars false
namespace Planar
open Spec

/-- Along and across coordinates of a point relative to a point with a unit direction. -/
theorem along_across {d : Vec2 ℝ} (hd : d.length = 1) (a p : Vec2 ℝ) (t : ℝ) (q : Vec2 ℝ) (h1 : q.x = a.x + t * d.x)
    (h2 : q.y = a.y + t * d.y) :
    (p - q).length2 = (d.dot (p - a) - t) * (d.dot (p - a) - t) + d.cross (p - a) * d.cross (p - a) := by
  have hu := unit_iff.1 hd
  simp only [Vec2.length2, Vec2.dot, Vec2.cross, Vec2.sub_x, Vec2.sub_y, h1, h2]
  linear_combination -((p.x - a.x) * (p.x - a.x) + (p.y - a.y) * (p.y - a.y) - t * t) * hu

theorem dist_lt_iff {p q : Vec2 ℝ} {e : ℝ} (he : 0 ≤ e) : p.distanceTo q < e ↔ (p - q).length2 < e * e := by
  rw [distanceTo_eq_length, ← not_le, ← not_le, le_length_iff he]

/-- **C38** a point the ray contains is neither behind nor left nor right of it; a point that is none of these is contained
if it is level with the ray, and in any case closer to it than `sqrt 2 * EPSILON`. -/
theorem C38_sides_cover (eps : ℝ) (h0 : 0 < eps) (r : Ray ℝ) (h : r.Frame) (p : Vec2 ℝ) :
    (r.containsPoint eps p = true → r.pointBehind eps p = false ∧ r.pointLeft eps p = false ∧ r.pointRight eps p = false) ∧
    (r.pointBehind eps p = false → r.pointLeft eps p = false → r.pointRight eps p = false →
      (0 ≤ r.direction.dot (p - r.anchor) → r.containsPoint eps p = true) ∧ r.distanceTo p < √2 * eps) := by
  obtain ⟨mb, ml, mr⟩ := C38_sides_meaning eps r h p
  have hs2 : √2 * √2 = 2 := Real.mul_self_sqrt (by norm_num)
  have hs0 : 0 ≤ √2 := Real.sqrt_nonneg 2
  simp only [← Bool.not_eq_true, mb, ml, mr]
  have hlen := along_across h.1 r.anchor p
  set A := r.direction.dot (p - r.anchor)
  set B := r.direction.cross (p - r.anchor)
  constructor
  · intro hc
    obtain ⟨q, ⟨t, ht, h1, h2⟩, hq⟩ := (C38_contains eps r h p).1 hc
    rw [dist_lt_iff h0.le, hlen t q h1 h2] at hq
    refine ⟨?_, ?_, ?_⟩
    · intro hA; nlinarith [mul_self_nonneg B]
    · rintro ⟨-, hB⟩; nlinarith [mul_self_nonneg (A - t)]
    · rintro ⟨-, hB⟩; nlinarith [mul_self_nonneg (A - t)]
  · intro hA hl hr
    push Not at hA hl hr
    have hB1 := hl hA
    have hB2 := hr hA
    refine ⟨fun hA0 => ?_, ?_⟩
    · rw [C38_contains eps r h p]
      refine ⟨⟨r.anchor.x + A * r.direction.x, r.anchor.y + A * r.direction.y⟩, ⟨A, hA0, rfl, rfl⟩, ?_⟩
      rw [dist_lt_iff h0.le, hlen A _ rfl rfl]
      nlinarith
    · obtain ⟨-, hd⟩ := C38_distance r h p
      rcases le_or_gt 0 A with hA0 | hA0
      · refine lt_of_le_of_lt (hd ⟨r.anchor.x + A * r.direction.x, r.anchor.y + A * r.direction.y⟩ ⟨A, hA0, rfl, rfl⟩) ?_
        rw [dist_lt_iff (mul_nonneg hs0 h0.le), hlen A _ rfl rfl]
        nlinarith [mul_pos h0 h0]
      · refine lt_of_le_of_lt (hd r.anchor ⟨0, le_rfl, by simp, by simp⟩) ?_
        rw [dist_lt_iff (mul_nonneg hs0 h0.le), hlen 0 _ (by simp) (by simp)]
        nlinarith [mul_pos h0 h0]

/-- **C40** a point the segment contains is neither behind nor ahead nor left nor right of it; a point that is none of these
is contained if it is level with the segment, and in any case closer to it than `sqrt 2 * EPSILON` (length not negative). -/
theorem C40_sides_cover (eps : ℝ) (h0 : 0 < eps) (s : LineSegment ℝ) (h : s.Frame) (hl : 0 ≤ s.length) (p : Vec2 ℝ) :
    (s.containsPoint eps p = true → s.pointBehind eps p = false ∧ s.pointAhead eps p = false ∧ s.pointLeft eps p = false ∧
      s.pointRight eps p = false) ∧
    (s.pointBehind eps p = false → s.pointAhead eps p = false → s.pointLeft eps p = false → s.pointRight eps p = false →
      (0 ≤ s.direction.dot (p - s.anchor) → s.direction.dot (p - s.anchor) ≤ s.length → s.containsPoint eps p = true) ∧
      s.distanceTo p < √2 * eps) := by
  obtain ⟨ml, mr⟩ := C40_sides_meaning eps s h p
  have mb : s.pointBehind eps p = true ↔ s.direction.dot (p - s.anchor) ≤ -eps := by
    simp only [LineSegment.pointBehind, decide_eq_true_eq, Vec2.copy_eq]
  have ma : s.pointAhead eps p = true ↔ s.length + eps ≤ s.direction.dot (p - s.anchor) := by
    simp only [LineSegment.pointAhead, decide_eq_true_eq, Vec2.copy_eq, ge_iff_le]
  have hs2 : √2 * √2 = 2 := Real.mul_self_sqrt (by norm_num)
  have hs0 : 0 ≤ √2 := Real.sqrt_nonneg 2
  simp only [← Bool.not_eq_true, mb, ml, mr, ma]
  have hlen := along_across h.1 s.anchor p
  have hpt : ∀ t, 0 ≤ t → t ≤ s.length → s.Pt ⟨s.anchor.x + t * s.direction.x, s.anchor.y + t * s.direction.y⟩ := by
    intro t t0 t1
    rcases hl.eq_or_lt with h | h
    · refine ⟨0, le_rfl, zero_le_one, ?_, ?_⟩ <;> simp [show t = 0 by linarith]
    · refine ⟨t / s.length, div_nonneg t0 hl, (div_le_one h).2 t1, ?_, ?_⟩ <;>
        simp only [LineSegment.end', Vec2.add_x, Vec2.add_y, Vec2.smul] <;> field_simp <;> ring
  have hpt' : ∀ q, s.Pt q → ∃ t, 0 ≤ t ∧ t ≤ s.length ∧ q.x = s.anchor.x + t * s.direction.x ∧
      q.y = s.anchor.y + t * s.direction.y := by
    rintro q ⟨t, t0, t1, h1, h2⟩
    refine ⟨t * s.length, mul_nonneg t0 hl, by nlinarith, ?_, ?_⟩
    · rw [h1]; simp only [LineSegment.end', Vec2.add_x, Vec2.smul]; ring
    · rw [h2]; simp only [LineSegment.end', Vec2.add_y, Vec2.smul]; ring
  set A := s.direction.dot (p - s.anchor)
  set B := s.direction.cross (p - s.anchor)
  constructor
  · intro hc
    obtain ⟨q, hq', hq⟩ := (C39_contains_partial eps s h hl p).1 hc
    obtain ⟨t, t0, t1, h1, h2⟩ := hpt' q hq'
    rw [dist_lt_iff h0.le, hlen t q h1 h2] at hq
    refine ⟨?_, ?_, ?_, ?_⟩
    · intro hA; nlinarith [mul_self_nonneg B]
    · intro hA; nlinarith [mul_self_nonneg B]
    · rintro ⟨-, -, hB⟩; nlinarith [mul_self_nonneg (A - t)]
    · rintro ⟨-, -, hB⟩; nlinarith [mul_self_nonneg (A - t)]
  · intro hA hA' hl' hr'
    push Not at hA hA' hl' hr'
    have hB1 := hl' hA hA'
    have hB2 := hr' hA hA'
    refine ⟨fun hA0 hA1 => ?_, ?_⟩
    · rw [C39_contains_partial eps s h hl p]
      refine ⟨_, hpt A hA0 hA1, ?_⟩
      rw [dist_lt_iff h0.le, hlen A _ rfl rfl]
      nlinarith
    · obtain ⟨-, hd⟩ := C39_distance_partial s h hl p
      have key : ∃ t, 0 ≤ t ∧ t ≤ s.length ∧ (A - t) * (A - t) ≤ eps * eps := by
        rcases le_or_gt 0 A with hA0 | hA0
        · rcases le_or_gt A s.length with hA1 | hA1
          · exact ⟨A, hA0, hA1, by nlinarith⟩
          · exact ⟨s.length, hl, le_rfl, by nlinarith⟩
        · exact ⟨0, le_rfl, hl, by nlinarith⟩
      obtain ⟨t, t0, t1, ht⟩ := key
      refine lt_of_le_of_lt (hd _ (hpt t t0 t1)) ?_
      rw [dist_lt_iff (mul_nonneg hs0 h0.le), hlen t _ rfl rfl]
      nlinarith [mul_pos h0 h0]

/-- A ray, and points it contains, left of it and behind it. -/
example : ∃ r : Ray ℝ, r.Frame ∧ 0 ≤ r.direction.dot ((⟨3, 1⟩ : Vec2 ℝ) - r.anchor) :=
  ⟨⟨⟨⟨1, 0⟩, ⟨0, -1⟩⟩, ⟨1, 1⟩⟩, ⟨by rw [unit_iff]; norm_num, by rw [unit_iff]; norm_num, by simp⟩, by norm_num [Vec2.dot]⟩

end Planar
