import Verif.Props.Vec
import Verif.Props.Affine
import Verif.Model.Line
import Verif.Spec.Shapes
/- Properties C34-C37, C42 for Line, and the shared lemmas about `direction` and `normal`. -/
set_option linter.unusedSectionVars false
namespace Planar
open Spec

/-- The direction is a unit vector and the normal is the direction turned a quarter clockwise. -/
def Lin.Frame (s : Lin ℝ) : Prop :=
  s.direction.length = 1 ∧ s.normal.length = 1 ∧ s.normal = ⟨s.direction.y, -s.direction.x⟩

theorem unit_iff {v : Vec2 ℝ} : v.length = 1 ↔ v.x * v.x + v.y * v.y = 1 := by
  rw [length_eq_iff zero_le_one]; simp [Vec2.length2]

theorem Lin.Frame.eqs {s : Lin ℝ} (h : s.Frame) : ∃ dx dy : ℝ, dx * dx + dy * dy = 1 ∧
    s.direction = ⟨dx, dy⟩ ∧ s.normal = ⟨dy, -dx⟩ :=
  ⟨s.direction.x, s.direction.y, unit_iff.mp h.1, rfl, h.2.2⟩

theorem Lin.frame_mk {dx dy : ℝ} (h : dx * dx + dy * dy = 1) : Lin.Frame ⟨⟨dx, dy⟩, ⟨dy, -dx⟩⟩ := by
  refine ⟨unit_iff.mpr h, unit_iff.mpr ?_, rfl⟩
  simp only; linarith

/-- The unit vector along `v`. -/
noncomputable def unitOf (v : Vec2 ℝ) : Vec2 ℝ := ⟨v.x / v.length, v.y / v.length⟩

theorem unitOf_unit {v : Vec2 ℝ} (h : 0 < v.length) :
    (unitOf v).x * (unitOf v).x + (unitOf v).y * (unitOf v).y = 1 := by
  have := length_mul_self v
  simp only [Vec2.length2] at this
  simp only [unitOf]
  field_simp
  linarith

theorem unitOf_smul {v : Vec2 ℝ} (h : 0 < v.length) : (unitOf v).smul v.length = v := by
  ext <;> simp [unitOf] <;> field_simp

theorem unitOf_of_unit {v : Vec2 ℝ} (h : v.length = 1) : unitOf v = v := by
  ext <;> simp [unitOf, h]

theorem normalized_long {eps : ℝ} (h0 : 0 ≤ eps) {v : Vec2 ℝ} (h : eps < v.length) :
    v.normalized eps = .ok (unitOf v) := by
  have hpos := lt_of_le_of_lt h0 h
  simp [Vec2.normalized, h, pydiv_ok hpos.ne', unitOf]; rfl

theorem normalized_short {eps : ℝ} {v : Vec2 ℝ} (h : v.length ≤ eps) : v.normalized eps = .ok Vec2.null := by
  simp [Vec2.normalized, not_lt.mpr h]

theorem unit_not_null {eps : ℝ} (h0 : 0 ≤ eps) (h1 : eps ≤ 1) {v : Vec2 ℝ} (hv : v.x * v.x + v.y * v.y = 1) :
    v.isNull eps = false := by
  simp only [Vec2.isNull, Vec2.length2, eps2, decide_eq_false_iff_not, not_lt, hv]; nlinarith

theorem null_isNull {eps : ℝ} (h0 : 0 < eps) : (Vec2.null : Vec2 ℝ).isNull eps = true := by
  simp [Vec2.isNull, Vec2.length2, eps2]; positivity

theorem setDirection_long {eps : ℝ} (h0 : 0 ≤ eps) (h1 : eps ≤ 1) (s : Lin ℝ) {v : Vec2 ℝ} (h : eps < v.length) :
    s.setDirection eps v = (.ok (), ⟨unitOf v, ⟨(unitOf v).y, -(unitOf v).x⟩⟩) := by
  have hu := unit_not_null h0 h1 (unitOf_unit (lt_of_le_of_lt h0 h))
  simp only [Lin.setDirection, Vec2.copy_eq, normalized_long h0 h, hu, Bool.false_eq_true, if_false]
  congr 2
  ext <;> simp

theorem setDirection_short {eps : ℝ} (h0 : 0 < eps) (s : Lin ℝ) {v : Vec2 ℝ} (h : v.length ≤ eps) :
    s.setDirection eps v = (.error .valueError, s) := by
  simp [Lin.setDirection, normalized_short h, null_isNull h0]

theorem setNormal_long {eps : ℝ} (h0 : 0 ≤ eps) (h1 : eps ≤ 1) (s : Lin ℝ) {v : Vec2 ℝ} (h : eps < v.length) :
    s.setNormal eps v = (.ok (), ⟨⟨-(unitOf v).y, (unitOf v).x⟩, unitOf v⟩) := by
  have hu := unit_not_null h0 h1 (unitOf_unit (lt_of_le_of_lt h0 h))
  simp only [Lin.setNormal, Vec2.copy_eq, normalized_long h0 h, hu, Bool.false_eq_true, if_false]
  rfl

theorem setNormal_short {eps : ℝ} (h0 : 0 < eps) (s : Lin ℝ) {v : Vec2 ℝ} (h : v.length ≤ eps) :
    s.setNormal eps v = (.error .valueError, s) := by
  simp [Lin.setNormal, normalized_short h, null_isNull h0]

theorem ofDirection_long {eps : ℝ} (h0 : 0 ≤ eps) (h1 : eps ≤ 1) {v : Vec2 ℝ} (h : eps < v.length) :
    Lin.ofDirection eps v = .ok ⟨unitOf v, ⟨(unitOf v).y, -(unitOf v).x⟩⟩ := by
  simp [Lin.ofDirection, setDirection_long h0 h1 _ h]

theorem ofDirection_short {eps : ℝ} (h0 : 0 < eps) {v : Vec2 ℝ} (h : v.length ≤ eps) :
    Lin.ofDirection eps v = .error .valueError := by
  simp [Lin.ofDirection, setDirection_short h0 _ h]

theorem ofNormal_long {eps : ℝ} (h0 : 0 ≤ eps) (h1 : eps ≤ 1) {v : Vec2 ℝ} (h : eps < v.length) :
    Lin.ofNormal eps v = .ok ⟨⟨-(unitOf v).y, (unitOf v).x⟩, unitOf v⟩ := by
  simp [Lin.ofNormal, setNormal_long h0 h1 _ h]

theorem ofNormal_short {eps : ℝ} (h0 : 0 < eps) {v : Vec2 ℝ} (h : v.length ≤ eps) :
    Lin.ofNormal eps v = .error .valueError := by
  simp [Lin.ofNormal, setNormal_short h0 _ h]

theorem frame_unitOf {v : Vec2 ℝ} (h : 0 < v.length) : Lin.Frame ⟨unitOf v, ⟨(unitOf v).y, -(unitOf v).x⟩⟩ :=
  Lin.frame_mk (unitOf_unit h)

theorem frame_unitOf_normal {v : Vec2 ℝ} (h : 0 < v.length) : Lin.Frame ⟨⟨-(unitOf v).y, (unitOf v).x⟩, unitOf v⟩ := by
  have := unitOf_unit h
  have h2 : Lin.Frame ⟨⟨-(unitOf v).y, (unitOf v).x⟩, ⟨(unitOf v).x, - -(unitOf v).y⟩⟩ :=
    Lin.frame_mk (by linarith)
  simpa using h2

/-- When EPSILON exceeds 1 even a unit vector counts as null, and every assignment fails. -/
theorem setDirection_big {eps : ℝ} (h1 : 1 < eps) (s : Lin ℝ) (v : Vec2 ℝ) :
    s.setDirection eps v = (.error .valueError, s) := by
  rcases lt_or_ge eps v.length with h | h
  · have h0 : 0 ≤ eps := by linarith
    have hu := unitOf_unit (lt_of_le_of_lt h0 h)
    have : (unitOf v).isNull eps = true := by
      simp only [Vec2.isNull, Vec2.length2, hu, eps2, decide_eq_true_eq]; nlinarith
    simp [Lin.setDirection, normalized_long h0 h, this]
  · exact setDirection_short (by linarith) s h

theorem setNormal_big {eps : ℝ} (h1 : 1 < eps) (s : Lin ℝ) (v : Vec2 ℝ) :
    s.setNormal eps v = (.error .valueError, s) := by
  rcases lt_or_ge eps v.length with h | h
  · have h0 : 0 ≤ eps := by linarith
    have hu := unitOf_unit (lt_of_le_of_lt h0 h)
    have : (unitOf v).isNull eps = true := by
      simp only [Vec2.isNull, Vec2.length2, hu, eps2, decide_eq_true_eq]; nlinarith
    simp [Lin.setNormal, normalized_long h0 h, this]
  · exact setNormal_short (by linarith) s h

theorem ofDirection_frame {eps : ℝ} (h0 : 0 < eps) {v : Vec2 ℝ} {l : Lin ℝ}
    (h : Lin.ofDirection eps v = .ok l) : l.Frame ∧ eps < v.length ∧ l.direction = unitOf v := by
  rcases le_or_gt eps 1 with h1 | h1
  swap
  · simp [Lin.ofDirection, setDirection_big h1] at h
  rcases lt_or_ge eps v.length with hv | hv
  · rw [ofDirection_long h0.le h1 hv] at h
    obtain rfl := Except.ok.inj h
    exact ⟨frame_unitOf (h0.trans hv), hv, rfl⟩
  · rw [ofDirection_short h0 hv] at h; cases h

theorem ofNormal_frame {eps : ℝ} (h0 : 0 < eps) {v : Vec2 ℝ} {l : Lin ℝ}
    (h : Lin.ofNormal eps v = .ok l) : l.Frame ∧ eps < v.length ∧ l.normal = unitOf v := by
  rcases le_or_gt eps 1 with h1 | h1
  swap
  · simp [Lin.ofNormal, setNormal_big h1] at h
  rcases lt_or_ge eps v.length with hv | hv
  · rw [ofNormal_long h0.le h1 hv] at h
    obtain rfl := Except.ok.inj h
    exact ⟨frame_unitOf_normal (h0.trans hv), hv, rfl⟩
  · rw [ofNormal_short h0 hv] at h; cases h

/-- The points of a line: those reached from its first defining point along its direction. -/
def Line.Pt (l : Line ℝ) (p : Vec2 ℝ) : Prop := OnLine l.points.1 l.direction p

/-- A point is on the line iff its normal coordinate is the offset. -/
theorem Line.pt_iff {l : Line ℝ} (h : l.Frame) (p : Vec2 ℝ) : l.Pt p ↔ p.dot l.normal = l.offset := by
  obtain ⟨dx, dy, hu, hd, hn⟩ := h.eqs
  unfold Line.Pt OnLine
  simp only [Line.points, Vec2.dot, hd, hn, Vec2.smul]
  constructor
  · rintro ⟨t, hx, hy⟩
    rw [hx, hy]; linear_combination l.offset * hu
  · intro hp
    refine ⟨p.x * dx + p.y * dy, ?_, ?_⟩
    · linear_combination -p.x * hu + dy * hp
    · linear_combination -p.y * hu - dx * hp

/-! ### C34 for lines -/

/-- The ways to build a Line. -/
inductive LineCtor where
  | new (point direction : Vec2 ℝ)
  | fromPoints (ps : List (Vec2 ℝ))
  | fromNormal (normal : Vec2 ℝ) (offset : ℝ)

/-- The line a constructor call builds, or its exception. -/
noncomputable def LineCtor.build (eps : ℝ) : LineCtor → Py (Line ℝ)
  | .new p d => Line.new eps p d
  | .fromPoints ps => Line.fromPoints eps ps
  | .fromNormal n o => Line.fromNormal eps n o

/-- The ways to change a Line. -/
inductive LineOp where
  | setDirection (v : Vec2 ℝ)
  | setNormal (v : Vec2 ℝ)
  | setOffset (o : ℝ)
  | imul (T : Affine ℝ)

/-- One change: its result and the line afterwards. -/
noncomputable def LineOp.exec (eps : ℝ) (s : Line ℝ) : LineOp → Py Unit × Line ℝ
  | .setDirection v => s.setDirection eps v
  | .setNormal v => s.setNormal eps v
  | .setOffset o => (.ok (), s.setOffset o)
  | .imul T => s.imul eps T

/-- The line after a history of changes (exceptions are caught by the caller). -/
noncomputable def LineOp.run (eps : ℝ) (s : Line ℝ) (ops : List LineOp) : Line ℝ :=
  ops.foldl (fun s op => (op.exec eps s).2) s

theorem Line.new_ok {eps : ℝ} (h0 : 0 < eps) (h1 : eps < 1) {p d : Vec2 ℝ} (h : eps < d.length) :
    Line.new eps p d = .ok ⟨⟨unitOf d, ⟨(unitOf d).y, -(unitOf d).x⟩⟩, p.dot ⟨(unitOf d).y, -(unitOf d).x⟩⟩ := by
  simp [Line.new, ofDirection_long h0.le h1.le h]

theorem Line.new_error {eps : ℝ} (h0 : 0 < eps) {p d : Vec2 ℝ} (h : d.length ≤ eps) :
    Line.new eps p d = .error .valueError := by
  simp [Line.new, ofDirection_short h0 h]

theorem LineCtor.frame {eps : ℝ} (h0 : 0 < eps) (c : LineCtor) (l : Line ℝ)
    (h : c.build eps = .ok l) : l.Frame := by
  cases c with
  | new p d =>
    simp only [LineCtor.build, Line.new, bind, Except.bind] at h
    split at h
    · cases h
    · rename_i k hk
      obtain rfl := Except.ok.inj h
      exact (ofDirection_frame h0 hk).1
  | fromPoints ps =>
    simp only [LineCtor.build, Line.fromPoints, bind, Except.bind] at h
    split at h
    · cases h
    · split at h
      · cases h
      · rename_i k hk
        split at h
        · obtain rfl := Except.ok.inj h
          exact (ofDirection_frame h0 hk).1
        · cases h
  | fromNormal n o =>
    simp only [LineCtor.build, Line.fromNormal, bind, Except.bind] at h
    split at h
    · cases h
    · rename_i k hk
      obtain rfl := Except.ok.inj h
      exact (ofNormal_frame h0 hk).1

theorem Lin.setDirection_cases {eps : ℝ} (h0 : 0 < eps) (s : Lin ℝ) (v : Vec2 ℝ) :
    ((s.setDirection eps v).1 = .ok () ∧ (s.setDirection eps v).2.Frame) ∨ (s.setDirection eps v) = (.error .valueError, s) := by
  rcases le_or_gt eps 1 with h1 | h1
  · rcases lt_or_ge eps v.length with hv | hv
    · left; rw [setDirection_long h0.le h1 s hv]; exact ⟨rfl, frame_unitOf (h0.trans hv)⟩
    · right; exact setDirection_short h0 s hv
  · right; exact setDirection_big h1 s v

theorem Lin.setNormal_cases {eps : ℝ} (h0 : 0 < eps) (s : Lin ℝ) (v : Vec2 ℝ) :
    ((s.setNormal eps v).1 = .ok () ∧ (s.setNormal eps v).2.Frame) ∨ (s.setNormal eps v) = (.error .valueError, s) := by
  rcases le_or_gt eps 1 with h1 | h1
  · rcases lt_or_ge eps v.length with hv | hv
    · left; rw [setNormal_long h0.le h1 s hv]; exact ⟨rfl, frame_unitOf_normal (h0.trans hv)⟩
    · right; exact setNormal_short h0 s hv
  · right; exact setNormal_big h1 s v

/-- **C34** (Line) one change either succeeds or raises ValueError and leaves the line as it was; either way direction
and normal stay a right-handed unit pair. -/
theorem C34_line_step (eps : ℝ) (h0 : 0 < eps) (s : Line ℝ) (hs : s.Frame) (op : LineOp) :
    (op.exec eps s).2.Frame ∧
    ((op.exec eps s).1 = .ok () ∨ op.exec eps s = (.error .valueError, s)) := by
  cases op with
  | setDirection v =>
    rcases Lin.setDirection_cases h0 s.toLin v with ⟨e1, e2⟩ | e
    · simp only [LineOp.exec, Line.setDirection, e1]; exact ⟨e2, Or.inl trivial⟩
    · simp only [LineOp.exec, Line.setDirection, e]; exact ⟨hs, Or.inr trivial⟩
  | setNormal v =>
    rcases Lin.setNormal_cases h0 s.toLin v with ⟨e1, e2⟩ | e
    · simp only [LineOp.exec, Line.setNormal, e1]; exact ⟨e2, Or.inl trivial⟩
    · simp only [LineOp.exec, Line.setNormal, e]; exact ⟨hs, Or.inr trivial⟩
  | setOffset o => exact ⟨hs, Or.inl rfl⟩
  | imul T =>
    rcases Lin.setDirection_cases h0 s.toLin (T.apply s.points.2 - T.apply s.points.1) with ⟨e1, e2⟩ | e
    · simp only [LineOp.exec, Line.imul, Line.setDirection, e1]; exact ⟨e2, Or.inl trivial⟩
    · simp only [LineOp.exec, Line.imul, Line.setDirection, e]; exact ⟨hs, Or.inr trivial⟩

/-- **C34** (Line) after any constructor and any history of changes. -/
theorem C34_line (eps : ℝ) (h0 : 0 < eps) (c : LineCtor) (l : Line ℝ)
    (h : c.build eps = .ok l) (ops : List LineOp) : (LineOp.run eps l ops).Frame := by
  have hl := c.frame h0 l h
  clear h
  unfold LineOp.run
  induction ops generalizing l with
  | nil => exact hl
  | cons op ops ih => exact ih _ (C34_line_step eps h0 l hl op).1

theorem len34 : (⟨3, 4⟩ : Vec2 ℝ).length = 5 := by
  rw [length_eq_iff (by norm_num)]; norm_num [Vec2.length2]

example : (LineCtor.new ⟨1, 2⟩ ⟨3, 4⟩).build (1/100000) = .ok ⟨⟨⟨3/5, 4/5⟩, ⟨4/5, -(3/5)⟩⟩, -2/5⟩ := by
  simp only [LineCtor.build]
  rw [Line.new_ok (by norm_num) (by norm_num) (by rw [len34]; norm_num)]
  simp [unitOf, len34, Vec2.dot]; norm_num

/-- **C34** what EPSILON = 0 does: the null direction is accepted, and the line has no unit direction. -/
theorem C34_zero_epsilon : Line.new 0 ⟨1, 2⟩ (⟨0, 0⟩ : Vec2 ℝ) = .ok ⟨⟨⟨0, 0⟩, ⟨0, 0⟩⟩, 0⟩ := by
  have hl : (⟨0, 0⟩ : Vec2 ℝ).length = 0 := by rw [length_eq_iff le_rfl]; simp [Vec2.length2]
  have : (Lin.setDirection 0 ⟨⟨0, 0⟩, ⟨0, 0⟩⟩ (⟨0, 0⟩ : Vec2 ℝ)) = (.ok (), ⟨⟨0, 0⟩, ⟨0, 0⟩⟩) := by
    simp only [Lin.setDirection, Vec2.copy_eq, normalized_short hl.le]
    simp only [Vec2.isNull, Vec2.length2, Vec2.null_x, Vec2.null_y, eps2]
    norm_num
    exact ⟨rfl, by ext <;> simp⟩
  simp only [Line.new, Lin.ofDirection, this]
  simp [Vec2.dot]

/-! ### C35 distance and sides -/

/-- **C35** `|distance_to|` is the distance to the line; its sign tells the side: it is negative when the point is
counter-clockwise of the direction. -/
theorem C35_distance (l : Line ℝ) (h : l.Frame) (p : Vec2 ℝ) :
    IsDist l.Pt p |l.distanceTo p| Vec2.distanceTo ∧
    ∀ q, l.Pt q → l.distanceTo p = -(l.direction.cross (p - q)) := by
  obtain ⟨dx, dy, hu, hd, hn⟩ := h.eqs
  have hp := Line.pt_iff h
  have hdist : l.distanceTo p = p.x * dy + p.y * -dx - l.offset := by
    simp [Line.distanceTo, Vec2.dot, hn]
  have habs : ∀ q, l.Pt q → |l.distanceTo p| ≤ p.distanceTo q := by
    intro q hq
    rw [hp] at hq
    simp only [Vec2.dot, hn] at hq
    rw [distanceTo_eq_length, le_length_iff (abs_nonneg _), abs_mul_abs_self, hdist]
    simp only [Vec2.length2, Vec2.sub_x, Vec2.sub_y]
    rw [← hq]
    nlinarith [sq_nonneg ((p.x - q.x) * dx + (p.y - q.y) * dy), mul_self_nonneg (p.x - q.x), mul_self_nonneg (p.y - q.y)]
  refine ⟨⟨⟨⟨p.x - dy * l.distanceTo p, p.y + dx * l.distanceTo p⟩, ?_, ?_⟩, habs⟩, ?_⟩
  · rw [hp]; simp only [Vec2.dot, hn, hdist]
    linear_combination (-(p.x * dy + p.y * -dx - l.offset)) * hu
  · rw [distanceTo_eq_length, length_eq_iff (abs_nonneg _), abs_mul_abs_self]
    simp only [Vec2.length2, Vec2.sub_x, Vec2.sub_y]
    linear_combination (l.distanceTo p) ^ 2 * hu
  · intro q hq
    rw [hp] at hq
    simp only [Vec2.dot, hn] at hq
    rw [hdist]; simp only [Vec2.cross, hd, Vec2.sub_x, Vec2.sub_y]; linear_combination hq

/-- **C35** exactly one of left, right, on. -/
theorem C35_partition (eps : ℝ) (h0 : 0 < eps) (l : Line ℝ) (p : Vec2 ℝ) :
    (l.pointLeft eps p = true ∧ l.pointRight eps p = false ∧ l.containsPoint eps p = false) ∨
    (l.pointLeft eps p = false ∧ l.pointRight eps p = true ∧ l.containsPoint eps p = false) ∨
    (l.pointLeft eps p = false ∧ l.pointRight eps p = false ∧ l.containsPoint eps p = true) := by
  simp only [Line.pointLeft, Line.pointRight, Line.containsPoint, pyabs_eq_abs, decide_eq_true_eq,
    decide_eq_false_iff_not, abs_lt]
  rcases le_or_gt (l.distanceTo p) (-eps) with h | h
  · left; exact ⟨h, by linarith, fun ⟨a, b⟩ => by linarith⟩
  · rcases le_or_gt eps (l.distanceTo p) with h' | h'
    · right; left; exact ⟨by linarith, h', fun ⟨a, b⟩ => by linarith⟩
    · right; right; exact ⟨by linarith, by linarith, h, h'⟩

/-- **C35** the sides in terms of the points of the line: left is counter-clockwise of the direction by at least
EPSILON, and so on. -/
theorem C35_sides (eps : ℝ) (l : Line ℝ) (h : l.Frame) (p q : Vec2 ℝ) (hq : l.Pt q) :
    (l.pointLeft eps p = true ↔ eps ≤ l.direction.cross (p - q)) ∧
    (l.pointRight eps p = true ↔ l.direction.cross (p - q) ≤ -eps) ∧
    (l.containsPoint eps p = true ↔ ∃ r, l.Pt r ∧ p.distanceTo r < eps) := by
  obtain ⟨⟨⟨r, hr, hd⟩, hle⟩, hs⟩ := C35_distance l h p
  have := hs q hq
  simp only [Line.pointLeft, Line.pointRight, Line.containsPoint, pyabs_eq_abs, decide_eq_true_eq, this]
  refine ⟨neg_le_neg_iff, le_neg, ?_⟩
  rw [← this]
  constructor
  · intro h'; exact ⟨r, hr, by rw [hd]; exact h'⟩
  · rintro ⟨r', hr', h'⟩; exact lt_of_le_of_lt (hle r' hr') h'

/-- **C35** the same line run backwards swaps left and right. -/
theorem C35_reversed (eps : ℝ) (l m : Line ℝ) (hl : l.Frame) (hm : m.Frame)
    (hd : m.direction = -l.direction) (hpt : ∀ q, l.Pt q ↔ m.Pt q) (p : Vec2 ℝ) :
    m.distanceTo p = -l.distanceTo p ∧ m.pointLeft eps p = l.pointRight eps p ∧
    m.pointRight eps p = l.pointLeft eps p ∧ m.containsPoint eps p = l.containsPoint eps p := by
  obtain ⟨⟨⟨r, hr, -⟩, -⟩, hs⟩ := C35_distance l hl p
  have e1 := hs r hr
  have e2 := (C35_distance m hm p).2 r ((hpt r).mp hr)
  have e : m.distanceTo p = -l.distanceTo p := by
    rw [e1, e2, hd]; simp [Vec2.cross]; ring
  refine ⟨e, ?_, ?_, ?_⟩
  · simp only [Line.pointLeft, Line.pointRight, e, ge_iff_le, neg_le_neg_iff]
  · simp only [Line.pointLeft, Line.pointRight, e, ge_iff_le, le_neg]
  · simp only [Line.containsPoint, e, pyabs_eq_abs, abs_neg]

example : Lin.Frame ⟨⟨3/5, 4/5⟩, ⟨4/5, -(3/5)⟩⟩ := Lin.frame_mk (by norm_num)

/-! ### C36 project and reflect -/

theorem project_unit {eps : ℝ} (h0 : 0 ≤ eps) (h1 : eps < 1) {d : Vec2 ℝ} (hd : d.x * d.x + d.y * d.y = 1)
    (w : Vec2 ℝ) : d.project eps w = .ok ⟨d.x * d.dot w, d.y * d.dot w⟩ := by
  have hl : d.length2 = 1 := hd
  have : (1 : ℝ) > eps2 eps := by simp only [eps2]; nlinarith
  simp only [Vec2.project, hl, this, if_true, pydiv_ok one_ne_zero, div_one]; rfl

theorem Line.project_ok {eps : ℝ} (h0 : 0 ≤ eps) (h1 : eps < 1) {l : Line ℝ} (h : l.Frame) (p : Vec2 ℝ) :
    l.project eps p = .ok ⟨l.direction.x * l.direction.dot p + l.normal.x * l.offset,
      l.direction.y * l.direction.dot p + l.normal.y * l.offset⟩ := by
  simp only [Line.project, project_unit h0 h1 (unit_iff.mp h.1)]; rfl

/-- **C36** project: on the line, the closest point, idempotent, fixing the points of the line. -/
theorem C36_project (eps : ℝ) (h0 : 0 ≤ eps) (h1 : eps < 1) (l : Line ℝ) (h : l.Frame) (p : Vec2 ℝ) :
    ∃ q, l.project eps p = .ok q ∧ l.Pt q ∧ (∀ r, l.Pt r → p.distanceTo q ≤ p.distanceTo r) ∧
      p.distanceTo q = |l.distanceTo p| ∧ l.project eps q = .ok q ∧ (l.Pt p → q = p) := by
  have hpr := Line.project_ok h0 h1 h
  have hdist := C35_distance l h p
  obtain ⟨dx, dy, hu, hd, hn⟩ := h.eqs
  have hpt := Line.pt_iff h
  simp only [hd, hn, Vec2.dot] at hpr hpt
  have hd0 : l.distanceTo p = p.x * dy + p.y * -dx - l.offset := by
    simp [Line.distanceTo, Vec2.dot, hn]
  have hq : l.Pt ⟨dx * (dx * p.x + dy * p.y) + dy * l.offset, dy * (dx * p.x + dy * p.y) + -dx * l.offset⟩ := by
    rw [hpt]; simp only; linear_combination l.offset * hu
  have hd' : p.distanceTo ⟨dx * (dx * p.x + dy * p.y) + dy * l.offset, dy * (dx * p.x + dy * p.y) + -dx * l.offset⟩
      = |l.distanceTo p| := by
    rw [distanceTo_eq_length, length_eq_iff (abs_nonneg _), abs_mul_abs_self, hd0]
    simp only [Vec2.length2, Vec2.sub_x, Vec2.sub_y]
    have e1 : p.x - (dx * (dx * p.x + dy * p.y) + dy * l.offset) = dy * (p.x * dy + p.y * -dx - l.offset) := by
      linear_combination -p.x * hu
    have e2 : p.y - (dy * (dx * p.x + dy * p.y) + -dx * l.offset) = -dx * (p.x * dy + p.y * -dx - l.offset) := by
      linear_combination -p.y * hu
    rw [e1, e2]; linear_combination (p.x * dy + p.y * -dx - l.offset) ^ 2 * hu
  refine ⟨_, hpr p, hq, ?_, hd', ?_, ?_⟩
  · intro r hr; rw [hd']; exact hdist.1.2 r hr
  · rw [hpr]; congr 1
    ext <;> simp only
    · linear_combination (dx * (dx * p.x + dy * p.y)) * hu
    · linear_combination (dy * (dx * p.x + dy * p.y)) * hu
  · intro hp
    rw [hpt] at hp
    ext <;> simp only
    · linear_combination p.x * hu - dy * hp
    · linear_combination p.y * hu + dx * hp

/-- **C36** reflect. -/
theorem C36_reflect (eps : ℝ) (h0 : 0 ≤ eps) (h1 : eps < 1) (l : Line ℝ) (h : l.Frame) (p q : Vec2 ℝ) :
    l.reflect (l.reflect p) = p ∧ (l.reflect p).distanceTo (l.reflect q) = p.distanceTo q ∧
    l.distanceTo (l.reflect p) = -l.distanceTo p ∧ (l.reflect p = p ↔ l.Pt p) ∧
    ∃ m, l.project eps p = .ok m ∧ m = p.lerp (l.reflect p) (1 / 2) := by
  have hpr := Line.project_ok h0 h1 h
  have hpt := Line.pt_iff h
  obtain ⟨dx, dy, hu, hd, hn⟩ := h.eqs
  simp only [hd, hn, Vec2.dot] at hpr hpt
  have hr : ∀ p, l.reflect p = ⟨p.x - dy * 2 * (p.x * dy + p.y * -dx - l.offset),
      p.y - -dx * 2 * (p.x * dy + p.y * -dx - l.offset)⟩ := by
    intro p; simp only [Line.reflect, Vec2.copy_eq, Vec2.dot, hn]
    ext <;> simp only [Vec2.sub_x, Vec2.sub_y, Vec2.smul_x, Vec2.smul_y] <;> ring
  refine ⟨?_, ?_, ?_, ?_, _, hpr p, ?_⟩
  · rw [hr, hr]; ext <;> simp only
    · linear_combination (4 * dy * (p.x * dy + p.y * -dx - l.offset)) * hu
    · linear_combination (-4 * dx * (p.x * dy + p.y * -dx - l.offset)) * hu
  · rw [distanceTo_eq_length, distanceTo_eq_length, length_eq_iff (length_nonneg _), length_mul_self, hr, hr]
    simp only [Vec2.length2, Vec2.sub_x, Vec2.sub_y]
    linear_combination (4 * (dy * (p.x - q.x) - dx * (p.y - q.y)) ^ 2) * hu
  · simp only [Line.distanceTo, Vec2.copy_eq, Vec2.dot, hn, hr]
    linear_combination (-2 * (p.x * dy + p.y * -dx - l.offset)) * hu
  · rw [hpt, hr, Vec2.ext_iff']
    simp only
    constructor
    · rintro ⟨e1, e2⟩
      have : 2 * (p.x * dy + p.y * -dx - l.offset) = 0 := by
        linear_combination -dy * e1 + dx * e2 - 2 * (p.x * dy + p.y * -dx - l.offset) * hu
      linarith
    · intro e
      have : p.x * dy + p.y * -dx - l.offset = 0 := by linarith
      rw [this]; simp
  · rw [hr]; ext <;> simp only [Vec2.lerp]
    · linear_combination p.x * hu
    · linear_combination p.y * hu

/-! ### C37 construction -/

/-- `Line.from_points` on at least two points with a different second one. -/
theorem firstTwoDistinct_spec (ps : List (Vec2 ℝ)) :
    (∀ a b r, firstTwoDistinct ps = .ok (a, b, r) → ps.head? = some a ∧ a ≠ b ∧
      ∃ k, ps = List.replicate (k + 1) a ++ b :: r) ∧
    ((∃ e, firstTwoDistinct ps = .error e) ↔ ∀ a ∈ ps, ∀ b ∈ ps, a = b) ∧
    (∀ e, firstTwoDistinct ps = .error e → e = .valueError) := by
  rcases ps with _ | ⟨p, ps⟩
  · simp [firstTwoDistinct]
  · simp only [firstTwoDistinct, Vec2.copy_eq]
    have key : (∀ a b r, firstTwoDistinct.go p ps = .ok (a, b, r) → a = p ∧ a ≠ b ∧
        ∃ k, ps = List.replicate k a ++ b :: r) ∧
        ((∃ e, firstTwoDistinct.go p ps = .error e) ↔ ∀ q ∈ ps, q = p) ∧
        (∀ e, firstTwoDistinct.go p ps = .error e → e = .valueError) := by
      induction ps with
      | nil => simp [firstTwoDistinct.go]
      | cons q qs ih =>
        simp only [firstTwoDistinct.go, Vec2.copy_eq]
        by_cases hq : (q == p) = true
        · simp only [hq, if_true]
          have hq' := eq_of_beq hq
          subst hq'
          obtain ⟨i1, i2, i3⟩ := ih
          refine ⟨?_, ?_, i3⟩
          · intro a b r h
            obtain ⟨rfl, h2, k, hk⟩ := i1 a b r h
            exact ⟨rfl, h2, k + 1, by rw [hk]; rfl⟩
          · rw [i2]; simp
        · have hne : q ≠ p := fun h => hq (by rw [h]; exact beq_self_eq_true p)
          have hq' : (q == p) = false := by simpa using hq
          rw [if_neg hq]
          refine ⟨?_, ?_, ?_⟩
          · intro a b r h
            simp only [Except.ok.injEq, Prod.mk.injEq] at h
            obtain ⟨rfl, rfl, rfl⟩ := h
            exact ⟨rfl, hne.symm, 0, rfl⟩
          · simp [hne]
          · simp
    obtain ⟨k1, k2, k3⟩ := key
    refine ⟨?_, ?_, k3⟩
    · intro a b r h
      obtain ⟨rfl, h2, k, hk⟩ := k1 a b r h
      exact ⟨rfl, h2, k, by rw [hk]; rfl⟩
    · rw [k2]
      constructor
      · intro h a ha b hb
        have : ∀ q ∈ p :: ps, q = p := by
          intro q hq; rcases List.mem_cons.mp hq with rfl | hq
          · rfl
          · exact h q hq
        rw [this a ha, this b hb]
      · intro h q hq; exact h q (List.mem_cons_of_mem _ hq) p List.mem_cons_self

theorem firstTwoDistinct_replicate (k : Nat) (a b : Vec2 ℝ) (r : List (Vec2 ℝ)) (hab : a ≠ b) :
    firstTwoDistinct (List.replicate (k + 1) a ++ b :: r) = .ok (a, b, r) := by
  rw [List.replicate_succ, List.cons_append]
  simp only [firstTwoDistinct, Vec2.copy_eq]
  induction k with
  | zero =>
    simp only [List.replicate_zero, List.nil_append, firstTwoDistinct.go, Vec2.copy_eq]
    rw [if_neg (by rw [beq_iff_eq]; exact hab.symm)]
  | succ k ih =>
    rw [List.replicate_succ, List.cons_append]
    simp only [firstTwoDistinct.go, Vec2.copy_eq]
    rw [if_pos (beq_self_eq_true a)]
    exact ih

/-- **C37** `Line(point, direction)`: through the point, along the direction; ValueError exactly for a direction that is
null within EPSILON. -/
theorem C37_new (eps : ℝ) (h0 : 0 < eps) (h1 : eps < 1) (p d : Vec2 ℝ) :
    (eps < d.length → ∃ l, Line.new eps p d = .ok l ∧ l.Frame ∧ l.Pt p ∧ l.direction.smul d.length = d) ∧
    (d.length ≤ eps → Line.new eps p d = .error .valueError) := by
  refine ⟨fun h => ?_, Line.new_error h0⟩
  have hf := frame_unitOf (h0.trans h)
  refine ⟨_, Line.new_ok h0 h1 h, hf, ?_, unitOf_smul (h0.trans h)⟩
  rw [Line.pt_iff (by exact hf)]

/-- **C37** `Line.from_normal(n, offset)`: normal along `n`, and the point `offset` along the unit normal is on the
line. -/
theorem C37_from_normal (eps : ℝ) (h0 : 0 < eps) (h1 : eps < 1) (n : Vec2 ℝ) (o : ℝ) :
    (eps < n.length → ∃ l, Line.fromNormal eps n o = .ok l ∧ l.Frame ∧ l.normal.smul n.length = n ∧
      l.Pt (l.normal.smul o) ∧ l.offset = o) ∧
    (n.length ≤ eps → Line.fromNormal eps n o = .error .valueError) := by
  constructor
  · intro h
    have hf := frame_unitOf_normal (h0.trans h)
    refine ⟨⟨⟨⟨-(unitOf n).y, (unitOf n).x⟩, unitOf n⟩, o⟩, ?_, hf, unitOf_smul (h0.trans h), ?_, rfl⟩
    · simp [Line.fromNormal, ofNormal_long h0.le h1.le h]
    · rw [Line.pt_iff (by exact hf)]
      have := unitOf_unit (h0.trans h)
      simp only [Vec2.dot, Vec2.smul]
      linear_combination o * this
  · intro h; simp [Line.fromNormal, ofNormal_short h0 h]

/-- The points `a ≠ b`, at least EPSILON apart, are the first two distinct ones of `ps` and `r` the rest. -/
theorem Line.fromPoints_eq {eps : ℝ} (h0 : 0 < eps) (h1 : eps < 1) {ps : List (Vec2 ℝ)} {a b : Vec2 ℝ}
    {r : List (Vec2 ℝ)} (h : firstTwoDistinct ps = .ok (a, b, r)) :
    Line.fromPoints eps ps = if eps < (b - a).length then
      (match Line.new eps a (b - a) with
       | .ok l => if ∀ p ∈ r, l.containsPoint eps p = true then .ok l else .error .valueError
       | .error e => .error e) else .error .valueError := by
  simp only [Line.fromPoints, h, bind, Except.bind]
  by_cases hl : eps < (b - a).length
  · rw [ofDirection_long h0.le h1.le hl, Line.new_ok h0 h1 hl]
    simp only [hl, if_true, List.all_eq_true]
    rfl
  · rw [ofDirection_short h0 (not_lt.mp hl)]
    simp [hl]

/-- **C37** `Line.from_points`: ValueError unless there are two distinct points, the first two distinct ones are more
than EPSILON apart, and the others are within EPSILON of the line through those two; the line contains these two exactly
and runs from the first to the second. -/
theorem C37_from_points (eps : ℝ) (h0 : 0 < eps) (h1 : eps < 1) (ps : List (Vec2 ℝ)) :
    (∀ e, Line.fromPoints eps ps = .error e → e = .valueError) ∧
    ((∀ a ∈ ps, ∀ b ∈ ps, a = b) → Line.fromPoints eps ps = .error .valueError) ∧
    (∀ k a b r, a ≠ b → ps = List.replicate (k + 1) a ++ b :: r →
      ((∃ l, Line.fromPoints eps ps = .ok l) ↔
        eps < a.distanceTo b ∧ ∀ p ∈ r, ∃ q, OnLine a (b - a) q ∧ p.distanceTo q < eps) ∧
      ∀ l, Line.fromPoints eps ps = .ok l → l.Frame ∧ l.Pt a ∧ l.Pt b ∧
        l.direction.smul (a.distanceTo b) = b - a ∧ ∀ p ∈ ps, l.containsPoint eps p = true) := by
  obtain ⟨s1, s2, s3⟩ := firstTwoDistinct_spec ps
  have herr : (∀ a ∈ ps, ∀ b ∈ ps, a = b) → Line.fromPoints eps ps = .error .valueError := by
    intro h
    obtain ⟨e, he⟩ := s2.mpr h
    rw [s3 e he] at he
    simp only [Line.fromPoints, he]; rfl
  refine ⟨?_, herr, ?_⟩
  · intro e he
    rcases hf : firstTwoDistinct ps with e' | ⟨a, b, r⟩
    · rw [herr (s2.mp ⟨e', hf⟩)] at he
      exact (Except.error.inj he).symm
    · rw [Line.fromPoints_eq h0 h1 hf] at he
      split at he
      · rename_i hl
        rw [Line.new_ok h0 h1 hl] at he
        simp only at he
        split at he
        · cases he
        · exact (Except.error.inj he).symm
      · exact (Except.error.inj he).symm
  · intro k a b r hab hps
    have hf : firstTwoDistinct ps = .ok (a, b, r) := hps ▸ firstTwoDistinct_replicate k a b r hab
    have hdist : a.distanceTo b = (b - a).length := by
      rw [distanceTo_eq_length, length_eq_iff (length_nonneg _), length_mul_self]
      simp only [Vec2.length2, Vec2.sub_x, Vec2.sub_y]; ring
    rw [Line.fromPoints_eq h0 h1 hf, hdist]
    by_cases hl : eps < (b - a).length
    · obtain ⟨l, hn, hfr, hpa, hdir⟩ := (C37_new eps h0 h1 a (b - a)).1 hl
      simp only [hl, if_true, hn, true_and]
      have hpos := h0.trans hl
      have hdx : l.direction.x * (b - a).length = b.x - a.x := by
        have := congrArg Vec2.x hdir; simpa using this
      have hdy : l.direction.y * (b - a).length = b.y - a.y := by
        have := congrArg Vec2.y hdir; simpa using this
      have hline : ∀ q, l.Pt q ↔ OnLine a (b - a) q := by
        intro q
        obtain ⟨t0, hx0, hy0⟩ := hpa
        constructor
        · rintro ⟨t, hx, hy⟩
          refine ⟨(t - t0) / (b - a).length, ?_, ?_⟩
          · simp only [Vec2.sub_x]; rw [← hdx, hx, hx0]; field_simp; ring
          · simp only [Vec2.sub_y]; rw [← hdy, hy, hy0]; field_simp; ring
        · rintro ⟨t, hx, hy⟩
          refine ⟨t * (b - a).length + t0, ?_, ?_⟩
          · simp only [Vec2.sub_x] at hx; rw [← hdx] at hx; rw [hx, hx0]; ring
          · simp only [Vec2.sub_y] at hy; rw [← hdy] at hy; rw [hy, hy0]; ring
      have hpb : l.Pt b := by
        rw [hline]; exact ⟨1, by simp, by simp⟩
      have hcont : ∀ p, l.containsPoint eps p = true ↔ ∃ q, OnLine a (b - a) q ∧ p.distanceTo q < eps := by
        intro p
        rw [(C35_sides eps l hfr p a hpa).2.2]
        simp only [hline]
      have hself : ∀ p, l.Pt p → l.containsPoint eps p = true := by
        intro p hp
        rw [hcont]
        refine ⟨p, (hline p).mp hp, ?_⟩
        rw [distanceTo_eq]; simpa using h0
      constructor
      · constructor
        · rintro ⟨l', hl'⟩
          split at hl'
          · rename_i hall
            intro p hp; exact (hcont p).mp (hall p hp)
          · cases hl'
        · intro hall
          exact ⟨l, by rw [if_pos (fun p hp => (hcont p).mpr (hall p hp))]⟩
      · intro l' hl'
        split at hl'
        · rename_i hall
          obtain rfl := Except.ok.inj hl'
          refine ⟨hfr, hpa, hpb, hdir, ?_⟩
          intro p hp
          rw [hps] at hp
          rcases List.mem_append.mp hp with hp | hp
          · rw [List.eq_of_mem_replicate hp]; exact hself a hpa
          · rcases List.mem_cons.mp hp with rfl | hp
            · exact hself _ hpb
            · exact hall p hp
        · cases hl'
    · simp [hl]

/-- **C37** the two points of a line determine it: `Line.from_points(line.points) == line`. -/
theorem C37_points (eps : ℝ) (h0 : 0 < eps) (h1 : eps < 1) (l : Line ℝ) (h : l.Frame) :
    l.Pt l.points.1 ∧ l.Pt l.points.2 ∧ Line.fromPoints eps [l.points.1, l.points.2] = .ok l := by
  have hp := Line.pt_iff h
  have hd : l.points.2 - l.points.1 = l.direction := by
    simp only [Line.points]; ext <;> simp
  have hne : l.points.1 ≠ l.points.2 := by
    intro he
    have : l.direction = Vec2.null := by rw [← hd, he]; ext <;> simp
    have h' := h.1
    rw [this, length_eq_zero.mpr rfl] at h'
    norm_num at h'
  have hf : firstTwoDistinct [l.points.1, l.points.2] = .ok (l.points.1, l.points.2, []) := by
    simp only [firstTwoDistinct, firstTwoDistinct.go, Vec2.copy_eq]
    rw [if_neg (by rw [beq_iff_eq]; exact hne.symm)]
  have hlen : eps < l.direction.length := by rw [h.1]; exact h1
  refine ⟨⟨0, by simp, by simp⟩, ⟨1, by simp [Line.points], by simp [Line.points]⟩, ?_⟩
  rw [Line.fromPoints_eq h0 h1 hf, hd, if_pos hlen, Line.new_ok h0 h1 hlen, unitOf_of_unit h.1]
  simp only [List.not_mem_nil, false_imp_iff, implies_true, if_true, ← h.2.2]
  have : l.points.1.dot l.normal = l.offset := (hp _).mp ⟨0, by simp, by simp⟩
  rw [this]

/-- **C37** parallel and perpendicular lines through a point. -/
theorem C37_parallel (eps : ℝ) (h0 : 0 < eps) (h1 : eps < 1) (l : Line ℝ) (h : l.Frame) (p : Vec2 ℝ) :
    (∃ m, l.parallel eps p = .ok m ∧ m.Frame ∧ m.Pt p ∧ m.direction = l.direction) ∧
    (∃ m, l.perpendicular eps p = .ok m ∧ m.Frame ∧ m.Pt p ∧ m.direction.dot l.direction = 0) := by
  have h2 : l.direction.perpendicular.length = 1 := by
    rw [unit_iff]; have := unit_iff.mp h.1; simp only [Vec2.perp_x, Vec2.perp_y]; linarith
  obtain ⟨m, e1, e2, e3, e4⟩ := (C37_new eps h0 h1 p l.direction).1 (by rw [h.1]; exact h1)
  obtain ⟨m', f1, f2, f3, f4⟩ := (C37_new eps h0 h1 p l.direction.perpendicular).1 (by rw [h2]; exact h1)
  refine ⟨⟨m, e1, e2, e3, ?_⟩, ⟨m', f1, f2, f3, ?_⟩⟩
  · rw [h.1] at e4; rw [← e4]; ext <;> simp
  · rw [h2] at f4
    have : m'.direction = l.direction.perpendicular := by rw [← f4]; ext <;> simp
    rw [this]; simp [Vec2.dot]; ring

end Planar
