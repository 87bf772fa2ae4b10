import Verif.Props.Segment
/- More about Line, Ray and LineSegment: what assigning to an attribute does (C34), perpendiculars (C37),
and the remaining parts of a segment (C40). -/
set_option linter.unusedSectionVars false
namespace Planar
open Spec

/-- `l` is what an object with direction `d` (any length) must hold: `d` scaled to length one. -/
def Lin.Along (l : Lin ℝ) (d : Vec2 ℝ) : Prop := l.Frame ∧ l.direction.smul d.length = d
/-- The same for a normal. -/
def Lin.Across (l : Lin ℝ) (n : Vec2 ℝ) : Prop := l.Frame ∧ l.normal.smul n.length = n

theorem Lin.set_spec (eps : ℝ) (h0 : 0 < eps) (h1 : eps < 1) (s : Lin ℝ) (v : Vec2 ℝ) :
    (eps < v.length → (s.setDirection eps v).1 = .ok () ∧ (s.setDirection eps v).2.Along v ∧
      (s.setNormal eps v).1 = .ok () ∧ (s.setNormal eps v).2.Across v) ∧
    (v.length ≤ eps → s.setDirection eps v = (.error .valueError, s) ∧
      s.setNormal eps v = (.error .valueError, s)) := by
  refine ⟨fun h => ?_, fun h => ⟨setDirection_short h0 s h, setNormal_short h0 s h⟩⟩
  rw [setDirection_long h0.le h1.le s h, setNormal_long h0.le h1.le s h]
  have hp := h0.trans h
  exact ⟨rfl, ⟨frame_unitOf hp, unitOf_smul hp⟩, rfl, ⟨frame_unitOf_normal hp, unitOf_smul hp⟩⟩

/-- **C34** (Line) assigning `direction` or `normal` a vector longer than EPSILON stores the unit vector along
it and keeps the offset; a shorter one raises ValueError and changes nothing; assigning `offset` keeps the
direction and puts the line that far along its normal. -/
theorem C34_line_assign (eps : ℝ) (h0 : 0 < eps) (h1 : eps < 1) (s : Line ℝ) (v : Vec2 ℝ) (o : ℝ) :
    (eps < v.length →
      (∃ s', s.setDirection eps v = (.ok (), s') ∧ s'.Along v ∧ s'.offset = s.offset) ∧
      (∃ s', s.setNormal eps v = (.ok (), s') ∧ s'.Across v ∧ s'.offset = s.offset)) ∧
    (v.length ≤ eps → s.setDirection eps v = (.error .valueError, s) ∧
      s.setNormal eps v = (.error .valueError, s)) ∧
    ((s.setOffset o).direction = s.direction ∧ (s.setOffset o).normal = s.normal ∧ (s.setOffset o).offset = o) := by
  obtain ⟨hl, hs⟩ := Lin.set_spec eps h0 h1 s.toLin v
  refine ⟨fun h => ?_, fun h => ?_, rfl, rfl, rfl⟩
  · obtain ⟨a, b, c, d⟩ := hl h
    exact ⟨⟨(s.setDirection eps v).2, Prod.ext a rfl, b, rfl⟩, ⟨(s.setNormal eps v).2, Prod.ext c rfl, d, rfl⟩⟩
  · obtain ⟨a, b⟩ := hs h
    simp only [Line.setDirection, Line.setNormal, a, b, and_self]

/-- **C34** (Ray) the same, keeping the anchor; assigning `anchor` moves the ray without turning it. -/
theorem C34_ray_assign (eps : ℝ) (h0 : 0 < eps) (h1 : eps < 1) (s : Ray ℝ) (v a : Vec2 ℝ) :
    (eps < v.length →
      (∃ s', s.setDirection eps v = (.ok (), s') ∧ s'.Along v ∧ s'.anchor = s.anchor) ∧
      (∃ s', s.setNormal eps v = (.ok (), s') ∧ s'.Across v ∧ s'.anchor = s.anchor)) ∧
    (v.length ≤ eps → s.setDirection eps v = (.error .valueError, s) ∧
      s.setNormal eps v = (.error .valueError, s)) ∧
    ((s.setAnchor a).direction = s.direction ∧ (s.setAnchor a).normal = s.normal ∧ (s.setAnchor a).anchor = a) := by
  obtain ⟨hl, hs⟩ := Lin.set_spec eps h0 h1 s.toLin v
  refine ⟨fun h => ?_, fun h => ?_, rfl, rfl, ?_⟩
  · obtain ⟨a, b, c, d⟩ := hl h
    exact ⟨⟨(s.setDirection eps v).2, Prod.ext a rfl, b, rfl⟩, ⟨(s.setNormal eps v).2, Prod.ext c rfl, d, rfl⟩⟩
  · obtain ⟨a, b⟩ := hs h
    simp only [Ray.setDirection, Ray.setNormal, a, b, and_self]
  · simp only [Ray.setAnchor, Vec2.copy_eq]

/-- **C34** (LineSegment) the same, keeping the start point and the length; assigning `anchor` moves the segment
without changing its vector, assigning `length` keeps start and direction. -/
theorem C34_segment_assign (eps : ℝ) (h0 : 0 < eps) (h1 : eps < 1) (s : LineSegment ℝ) (v a : Vec2 ℝ) (l : ℝ) :
    (eps < v.length →
      (∃ s', s.setDirection eps v = (.ok (), s') ∧ s'.Along v ∧ s'.anchor = s.anchor ∧ s'.length = s.length) ∧
      (∃ s', s.setNormal eps v = (.ok (), s') ∧ s'.Across v ∧ s'.anchor = s.anchor ∧ s'.length = s.length)) ∧
    (v.length ≤ eps → s.setDirection eps v = (.error .valueError, s) ∧
      s.setNormal eps v = (.error .valueError, s)) ∧
    ((s.setAnchor a).anchor = a ∧ (s.setAnchor a).vector = s.vector ∧ (s.setAnchor a).end' = a + s.vector ∧
      (s.setAnchor a).direction = s.direction ∧ (s.setAnchor a).normal = s.normal) ∧
    ((s.setLength l).anchor = s.anchor ∧ (s.setLength l).direction = s.direction ∧
      (s.setLength l).normal = s.normal ∧ (s.setLength l).length = l ∧
      (s.setLength l).end' = s.anchor + s.direction.smul l) := by
  obtain ⟨hl, hs⟩ := Lin.set_spec eps h0 h1 s.toLin v
  refine ⟨fun h => ?_, fun h => ?_, ?_, rfl, rfl, rfl, rfl, rfl⟩
  · obtain ⟨a, b, c, d⟩ := hl h
    exact ⟨⟨(s.setDirection eps v).2, Prod.ext a rfl, b, rfl, rfl⟩,
      ⟨(s.setNormal eps v).2, Prod.ext c rfl, d, rfl, rfl⟩⟩
  · obtain ⟨a, b⟩ := hs h
    simp only [LineSegment.setDirection, LineSegment.setNormal, a, b, and_self]
  · simp only [LineSegment.setAnchor, Vec2.copy_eq, LineSegment.vector, LineSegment.end', and_self]

/-- A vector longer than EPSILON, and one that is not. -/
example : (1/100000 : ℝ) < (⟨3, 4⟩ : Vec2 ℝ).length ∧ (⟨0, 0⟩ : Vec2 ℝ).length ≤ (1/100000 : ℝ) := by
  constructor
  · rw [show (⟨3, 4⟩ : Vec2 ℝ).length = 5 from (length_eq_iff (by norm_num)).mpr (by norm_num [Vec2.length2])]
    norm_num
  · have : (⟨0, 0⟩ : Vec2 ℝ).length = 0 := length_eq_zero.mpr rfl
    rw [this]; norm_num

/-- **C37** which way parallel and perpendicular lines run: the perpendicular is turned a quarter
counter-clockwise. -/
theorem C37_perpendicular (eps : ℝ) (h0 : 0 < eps) (h1 : eps < 1) (l : Line ℝ) (h : l.Frame) (p : Vec2 ℝ) :
    ∃ m, l.perpendicular eps p = .ok m ∧ m.Frame ∧ m.distanceTo p = 0 ∧
      m.direction = ⟨-l.direction.y, l.direction.x⟩ ∧ m.normal = l.direction := by
  obtain ⟨dx, dy, hu, hd, hn⟩ := h.eqs
  have hlen : (⟨-dy, dx⟩ : Vec2 ℝ).length = 1 := unit_iff.mpr (by simp only; linarith)
  have e : l.direction.perpendicular = ⟨-dy, dx⟩ := by rw [hd]; rfl
  have hf : Lin.Frame ⟨⟨-dy, dx⟩, ⟨dx, - -dy⟩⟩ := Lin.frame_mk (by linarith)
  refine ⟨⟨⟨⟨-dy, dx⟩, ⟨dx, - -dy⟩⟩, p.x * dx + p.y * - -dy⟩, ?_, hf, ?_, by rw [hd], by rw [hd, neg_neg]⟩
  · simp only [Line.perpendicular, Line.new, e, ofDirection_long h0.le h1.le (v := ⟨-dy, dx⟩) (by rw [hlen]; exact h1),
      unitOf_of_unit hlen, bind, Except.bind, pure, Except.pure, Vec2.copy_eq, Vec2.dot]
  · simp only [Line.distanceTo, Vec2.copy_eq, Vec2.dot]; ring

/-- **C40** `LineSegment.from_normal(n, offset, start, end)`: both end points are `offset` along the unit normal,
the end points are at the distances `start` and `end` along the direction, and the length is `end - start`
(negative when they are swapped: see C39). -/
theorem C40_from_normal (eps : ℝ) (h0 : 0 < eps) (h1 : eps < 1) (n : Vec2 ℝ) (o a b : ℝ) :
    (eps < n.length → ∃ s, LineSegment.fromNormal eps n o a b = .ok s ∧ s.Across n ∧
      s.anchor.dot s.normal = o ∧ s.end'.dot s.normal = o ∧
      s.anchor.dot s.direction = a ∧ s.end'.dot s.direction = b ∧ s.length = b - a) ∧
    (n.length ≤ eps → LineSegment.fromNormal eps n o a b = .error .valueError) := by
  constructor
  · intro h
    have hp := h0.trans h
    have hu := unitOf_unit hp
    refine ⟨_, by simp only [LineSegment.fromNormal, ofNormal_long h0.le h1.le h, bind, Except.bind, pure, Except.pure]; rfl,
      ⟨frame_unitOf_normal hp, unitOf_smul hp⟩, ?_, ?_, ?_, ?_, ?_⟩ <;>
    simp only [LineSegment.end', Vec2.dot, Vec2.add_x, Vec2.add_y, Vec2.smul_x, Vec2.smul_y, mul_one]
    · linear_combination o * hu
    · linear_combination o * hu
    · linear_combination a * hu
    · linear_combination b * hu
  · intro h
    simp only [LineSegment.fromNormal, ofNormal_short h0 h, bind, Except.bind]

/-- **C40** assigning `vector`: same start, the segment then spans the vector; a non-null vector not longer than
EPSILON raises ValueError and changes nothing (also when assigned through `end`). -/
theorem C40_set_vector (eps : ℝ) (h0 : 0 < eps) (h1 : eps < 1) (s : LineSegment ℝ) (v e : Vec2 ℝ) :
    (v = Vec2.null ∨ eps < v.length → ∃ s', s.setVector eps v = (.ok (), s') ∧ s'.Frame ∧
      s'.anchor = s.anchor ∧ s'.vector = v ∧ s'.end' = s.anchor + v ∧ s'.length = v.length) ∧
    (v ≠ Vec2.null → v.length ≤ eps → s.setVector eps v = (.error .valueError, s)) ∧
    (e ≠ s.anchor → s.anchor.distanceTo e ≤ eps → s.setEnd eps e = (.error .valueError, s)) := by
  refine ⟨fun h => ⟨_, setVector_ok h0 h1 s h, Lin.frame_mk (segDir_unit v), rfl, segDir_smul v, ?_, rfl⟩,
    fun hv h => setVector_error h0 s hv h, fun hv h => ?_⟩
  · simp only [LineSegment.end', segDir_smul]
  · simp only [LineSegment.setEnd, Vec2.copy_eq]
    apply setVector_error h0 s
    · intro hc
      apply hv
      have hx := congrArg Vec2.x hc
      have hy := congrArg Vec2.y hc
      simp at hx hy
      ext <;> linarith
    · have : (e - s.anchor).length = s.anchor.distanceTo e := by
        rw [distanceTo_eq_length, length_eq_iff (length_nonneg _), length_mul_self]
        simp [Vec2.length2]; ring
      rw [this]; exact h

/-- **C40** behind and ahead in terms of the along coordinate; `segment.line` contains the segment and runs the
same way. -/
theorem C40_ends_meaning (eps : ℝ) (h0 : 0 < eps) (h1 : eps < 1) (s : LineSegment ℝ) (h : s.Frame) (p : Vec2 ℝ) :
    (s.pointBehind eps p = true ↔ s.direction.dot (p - s.anchor) ≤ -eps) ∧
    (s.pointAhead eps p = true ↔ eps ≤ s.direction.dot (p - s.end')) ∧
    ∃ l, s.line eps = .ok l ∧ l.Frame ∧ l.direction = s.direction ∧ ∀ q, s.Pt q → l.distanceTo q = 0 := by
  obtain ⟨dx, dy, hu, hd, hn⟩ := h.eqs
  have hlen : (⟨dx, dy⟩ : Vec2 ℝ).length = 1 := unit_iff.mpr hu
  refine ⟨?_, ?_, ⟨⟨⟨dx, dy⟩, ⟨dy, -dx⟩⟩, s.anchor.x * dy + s.anchor.y * -dx⟩, ?_, Lin.frame_mk hu, by rw [hd], ?_⟩
  · simp only [LineSegment.pointBehind, Vec2.copy_eq, decide_eq_true_eq]
  · simp only [LineSegment.pointAhead, Vec2.copy_eq, decide_eq_true_eq, LineSegment.end', hd, Vec2.dot,
      Vec2.sub_x, Vec2.sub_y, Vec2.add_x, Vec2.add_y, Vec2.smul_x, Vec2.smul_y, ge_iff_le]
    have : dx * (p.x - (s.anchor.x + dx * s.length)) + dy * (p.y - (s.anchor.y + dy * s.length)) =
      dx * (p.x - s.anchor.x) + dy * (p.y - s.anchor.y) - s.length := by linear_combination (-s.length) * hu
    rw [this]
    constructor <;> intro h <;> linarith
  · simp only [LineSegment.line, Line.new, hd, ofDirection_long h0.le h1.le (v := ⟨dx, dy⟩) (by rw [hlen]; exact h1), unitOf_of_unit hlen,
      bind, Except.bind, pure, Except.pure, Vec2.copy_eq, Vec2.dot]
  · intro q hq
    obtain ⟨t, -, -, hx, hy⟩ := hq
    simp only [Line.distanceTo, Vec2.copy_eq, Vec2.dot, hx, hy, LineSegment.end_x,
      LineSegment.end_y, hd]
    ring

/-- A segment meeting the hypotheses: from (1,2), direction along x, length 3. -/
example : (⟨⟨⟨1, 0⟩, ⟨0, -1⟩⟩, ⟨1, 2⟩, 3⟩ : LineSegment ℝ).Frame := Lin.frame_mk (by norm_num)

end Planar
