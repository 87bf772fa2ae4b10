import Verif.Props.Ray
/- Properties C34, C39-C41 for LineSegment. -/
set_option linter.unusedSectionVars false
namespace Planar
open Spec

/-- The points of a segment: those between its two end points. -/
def LineSegment.Pt (s : LineSegment ℝ) (p : Vec2 ℝ) : Prop := OnSeg s.anchor s.end' p

/-- The ways to build a LineSegment. -/
inductive SegCtor where
  | new (anchor vector : Vec2 ℝ)
  | fromPoints (ps : List (Vec2 ℝ))
  | fromNormal (normal : Vec2 ℝ) (offset startDistance endDistance : ℝ)

/-- The segment a constructor call builds, or its exception. -/
noncomputable def SegCtor.build (eps : ℝ) : SegCtor → Py (LineSegment ℝ)
  | .new a v => LineSegment.new eps a v
  | .fromPoints ps => LineSegment.fromPoints eps ps
  | .fromNormal n o a b => LineSegment.fromNormal eps n o a b

/-- The ways to change a LineSegment. -/
inductive SegOp where
  | setDirection (v : Vec2 ℝ)
  | setNormal (v : Vec2 ℝ)
  | setAnchor (v : Vec2 ℝ)
  | setVector (v : Vec2 ℝ)
  | setEnd (v : Vec2 ℝ)
  | setLength (l : ℝ)
  | imul (T : Affine ℝ)

/-- One change: its result and the segment afterwards. -/
noncomputable def SegOp.exec (eps : ℝ) (s : LineSegment ℝ) : SegOp → Py Unit × LineSegment ℝ
  | .setDirection v => s.setDirection eps v
  | .setNormal v => s.setNormal eps v
  | .setAnchor v => (.ok (), s.setAnchor v)
  | .setVector v => s.setVector eps v
  | .setEnd v => s.setEnd eps v
  | .setLength l => (.ok (), s.setLength l)
  | .imul T => s.imul eps T

/-- The segment after a history of changes. -/
noncomputable def SegOp.run (eps : ℝ) (s : LineSegment ℝ) (ops : List SegOp) : LineSegment ℝ :=
  ops.foldl (fun s op => (op.exec eps s).2) s

open Classical in
/-- The direction a segment with vector `v` is given. -/
noncomputable def segDir (v : Vec2 ℝ) : Vec2 ℝ := if v = Vec2.null then ⟨1, 0⟩ else unitOf v

theorem segDir_unit (v : Vec2 ℝ) : (segDir v).x * (segDir v).x + (segDir v).y * (segDir v).y = 1 := by
  unfold segDir
  split
  · norm_num
  · rename_i h; exact unitOf_unit (length_pos h)

theorem segDir_smul (v : Vec2 ℝ) : (segDir v).smul v.length = v := by
  unfold segDir
  split
  · rename_i h; subst h; rw [length_eq_zero.mpr rfl]; ext <;> simp
  · rename_i h; exact unitOf_smul (length_pos h)

theorem len10 : (⟨1, 0⟩ : Vec2 ℝ).length = 1 := by rw [unit_iff]; norm_num
theorem unit10 : unitOf (⟨1, 0⟩ : Vec2 ℝ) = ⟨1, 0⟩ := unitOf_of_unit len10

theorem setVector_ok {eps : ℝ} (h0 : 0 < eps) (h1 : eps < 1) (s : LineSegment ℝ) {v : Vec2 ℝ}
    (h : v = Vec2.null ∨ eps < v.length) :
    s.setVector eps v = (.ok (), ⟨⟨segDir v, ⟨(segDir v).y, -(segDir v).x⟩⟩, s.anchor, v.length⟩) := by
  by_cases hv : v = Vec2.null
  · have hl : v.length = 0 := length_eq_zero.mpr hv
    have := setDirection_long h0.le h1.le s.toLin (v := ⟨1, 0⟩) (by rw [len10]; exact h1)
    rw [unit10] at this
    have hdir : segDir v = ⟨1, 0⟩ := if_pos hv
    simp only [LineSegment.setVector, Vec2.copy_eq, hl, bne_self_eq_false, Bool.false_eq_true, if_false, this, hdir]
  · have hl : v.length ≠ 0 := fun h' => hv (length_eq_zero.mp h')
    have he : eps < v.length := by tauto
    simp [LineSegment.setVector, hl, setDirection_long h0.le h1.le s.toLin he, segDir, hv]

theorem setVector_error {eps : ℝ} (h0 : 0 < eps) (s : LineSegment ℝ) {v : Vec2 ℝ}
    (hv : v ≠ Vec2.null) (h : v.length ≤ eps) : s.setVector eps v = (.error .valueError, s) := by
  have hl : v.length ≠ 0 := fun h' => hv (length_eq_zero.mp h')
  simp [LineSegment.setVector, hl, setDirection_short h0 s.toLin h]

theorem setVector_cases {eps : ℝ} (h0 : 0 < eps) (s : LineSegment ℝ) (v : Vec2 ℝ) :
    ((s.setVector eps v).1 = .ok () ∧ (s.setVector eps v).2.Frame ∧ (s.setVector eps v).2.anchor = s.anchor ∧
      0 ≤ (s.setVector eps v).2.length) ∨ (s.setVector eps v) = (.error .valueError, s) := by
  have key : ∀ w, ((s.toLin.setDirection eps w).1 = .ok () ∧ (s.toLin.setDirection eps w).2.Frame) ∨
      (s.toLin.setDirection eps w) = (.error .valueError, s.toLin) := Lin.setDirection_cases h0 s.toLin
  have hw : ∃ w, (if (v.length != 0) = true then s.toLin.setDirection eps v else s.toLin.setDirection eps ⟨1, 0⟩) =
      s.toLin.setDirection eps w := by
    split
    · exact ⟨_, rfl⟩
    · exact ⟨_, rfl⟩
  obtain ⟨w, hw⟩ := hw
  simp only [LineSegment.setVector, Vec2.copy_eq, hw]
  rcases key w with ⟨e1, e2⟩ | e
  · left; simp only [e1]; exact ⟨trivial, e2, trivial, length_nonneg _⟩
  · right; simp only [e]

theorem SegCtor.frame {eps : ℝ} (h0 : 0 < eps) (c : SegCtor) (l : LineSegment ℝ)
    (h : c.build eps = .ok l) : l.Frame := by
  cases c with
  | new a v =>
    simp only [SegCtor.build, LineSegment.new] at h
    rcases setVector_cases h0 ⟨⟨v, v⟩, a, 0⟩ v with ⟨e1, e2, -⟩ | e
    · rcases hs : LineSegment.setVector eps ⟨⟨v, v⟩, a, 0⟩ v with ⟨r, s⟩
      rw [hs] at h e1 e2
      simp only at e1; subst e1
      obtain rfl := Except.ok.inj h
      exact e2
    · rw [e] at h; cases h
  | fromPoints ps =>
    simp only [SegCtor.build] at h
    rcases ps with _ | ⟨p, ps⟩
    · simp [LineSegment.fromPoints] at h
    · simp only [LineSegment.fromPoints, Vec2.copy_eq] at h
      split at h
      · cases h
      · rename_i s hs
        split at h
        · obtain rfl := Except.ok.inj h
          split at hs
          · rcases setVector_cases h0 ⟨⟨p, p⟩, p, 0⟩ (LineSegment.furthestLoop p ps 0 p - p) with ⟨-, e2, -⟩ | e
            · rw [hs] at e2; exact e2
            · rw [e] at hs; cases hs
          · rcases Lin.setDirection_cases h0 ⟨p, p⟩ ⟨1, 0⟩ with ⟨e1, e2⟩ | e
            · rw [Prod.mk.injEq] at hs; rw [← hs.2]; exact e2
            · rw [e] at hs; cases hs
        · cases h
  | fromNormal n o a b =>
    simp only [SegCtor.build, LineSegment.fromNormal, bind, Except.bind] at h
    split at h
    · cases h
    · rename_i k hk
      obtain rfl := Except.ok.inj h
      exact (ofNormal_frame h0 hk).1

/-- **C34** (LineSegment) one change either succeeds or raises ValueError and leaves the segment as it was. -/
theorem C34_segment_step (eps : ℝ) (h0 : 0 < eps) (s : LineSegment ℝ) (hs : s.Frame) (op : SegOp) :
    (op.exec eps s).2.Frame ∧
    ((op.exec eps s).1 = .ok () ∨ op.exec eps s = (.error .valueError, s)) := by
  cases op with
  | setDirection v =>
    rcases Lin.setDirection_cases h0 s.toLin v with ⟨e1, e2⟩ | e
    · simp only [SegOp.exec, LineSegment.setDirection, e1]; exact ⟨e2, Or.inl trivial⟩
    · simp only [SegOp.exec, LineSegment.setDirection, e]; exact ⟨hs, Or.inr trivial⟩
  | setNormal v =>
    rcases Lin.setNormal_cases h0 s.toLin v with ⟨e1, e2⟩ | e
    · simp only [SegOp.exec, LineSegment.setNormal, e1]; exact ⟨e2, Or.inl trivial⟩
    · simp only [SegOp.exec, LineSegment.setNormal, e]; exact ⟨hs, Or.inr trivial⟩
  | setAnchor o => exact ⟨hs, Or.inl rfl⟩
  | setLength o => exact ⟨hs, Or.inl rfl⟩
  | setVector v =>
    rcases setVector_cases h0 s v with ⟨e1, e2, -⟩ | e
    · simp only [SegOp.exec, e1]; exact ⟨e2, Or.inl trivial⟩
    · simp only [SegOp.exec, e]; exact ⟨hs, Or.inr trivial⟩
  | setEnd v =>
    rcases setVector_cases h0 s (v - s.anchor) with ⟨e1, e2, -⟩ | e
    · simp only [SegOp.exec, LineSegment.setEnd, Vec2.copy_eq, e1]; exact ⟨e2, Or.inl trivial⟩
    · simp only [SegOp.exec, LineSegment.setEnd, Vec2.copy_eq, e]; exact ⟨hs, Or.inr trivial⟩
  | imul T =>
    simp only [SegOp.exec, LineSegment.imul]
    rcases hc : s.setVector eps (T.apply s.points.2 - T.apply s.points.1) with ⟨r, s'⟩
    rcases setVector_cases h0 s (T.apply s.points.2 - T.apply s.points.1) with ⟨e1, e2, -⟩ | e
    · rw [hc] at e1 e2
      simp only at e1; subst e1
      exact ⟨e2, Or.inl rfl⟩
    · rw [hc] at e
      obtain ⟨rfl, rfl⟩ := Prod.mk.inj e
      exact ⟨hs, Or.inr rfl⟩

/-- **C34** (LineSegment) after any constructor and any history of changes. -/
theorem C34_segment (eps : ℝ) (h0 : 0 < eps) (c : SegCtor) (l : LineSegment ℝ)
    (h : c.build eps = .ok l) (ops : List SegOp) : (SegOp.run eps l ops).Frame := by
  have hl := c.frame h0 l h
  clear h
  unfold SegOp.run
  induction ops generalizing l with
  | nil => exact hl
  | cons op ops ih => exact ih _ (C34_segment_step eps h0 l hl op).1

/-! ### C39 -/

theorem LineSegment.end_x (s : LineSegment ℝ) : s.end'.x = s.anchor.x + s.direction.x * s.length := rfl
theorem LineSegment.end_y (s : LineSegment ℝ) : s.end'.y = s.anchor.y + s.direction.y * s.length := rfl

/-- For a segment of length at least zero: its points are those at a distance `t` along, `0 ≤ t ≤ length`. -/
theorem LineSegment.pt_iff {s : LineSegment ℝ} (hl : 0 ≤ s.length) (p : Vec2 ℝ) :
    s.Pt p ↔ ∃ t, 0 ≤ t ∧ t ≤ s.length ∧ p.x = s.anchor.x + t * s.direction.x ∧ p.y = s.anchor.y + t * s.direction.y := by
  constructor
  · rintro ⟨t, h0, h1, hx, hy⟩
    rw [s.end_x] at hx; rw [s.end_y] at hy
    exact ⟨t * s.length, mul_nonneg h0 hl, by nlinarith, by rw [hx]; ring, by rw [hy]; ring⟩
  · rintro ⟨t, h0, h1, hx, hy⟩
    by_cases hz : s.length = 0
    · refine ⟨0, le_rfl, zero_le_one, ?_, ?_⟩
      · rw [hx, show t = 0 by linarith]; simp
      · rw [hy, show t = 0 by linarith]; simp
    · have hpos : 0 < s.length := lt_of_le_of_ne hl (Ne.symm hz)
      refine ⟨t / s.length, div_nonneg h0 hl, by rw [div_le_one hpos]; exact h1, ?_, ?_⟩
      · rw [hx, s.end_x]; field_simp; ring
      · rw [hy, s.end_y]; field_simp; ring

/-- The facts used by `distance_to` and `project`: `A` along and `B` across. -/
theorem seg_facts {s : LineSegment ℝ} (h : s.Frame) (p : Vec2 ℝ) :
    ∃ A B : ℝ, A = s.direction.dot (p - s.anchor) ∧ |(p - s.anchor).dot s.normal| = |B| ∧
      ∀ t (q : Vec2 ℝ), q.x = s.anchor.x + t * s.direction.x → q.y = s.anchor.y + t * s.direction.y →
        (p - q).length2 = (A - t) * (A - t) + B * B := by
  obtain ⟨dx, dy, hu, hd, hn⟩ := h.eqs
  obtain ⟨hx, hy⟩ := frame_coords hu (p.x - s.anchor.x) (p.y - s.anchor.y)
  refine ⟨_, dy * (p.x - s.anchor.x) - dx * (p.y - s.anchor.y), rfl, ?_, ?_⟩
  · congr 1; simp only [Vec2.dot, hn, Vec2.sub_x, Vec2.sub_y]; ring
  · intro t q h1 h2
    simp only [Vec2.dot, hd, Vec2.sub_x, Vec2.sub_y] at *
    set A := dx * (p.x - s.anchor.x) + dy * (p.y - s.anchor.y)
    set B := dy * (p.x - s.anchor.x) - dx * (p.y - s.anchor.y)
    have e1 : p.x - q.x = dx * (A - t) + dy * B := by rw [h1]; linear_combination hx
    have e2 : p.y - q.y = dy * (A - t) - dx * B := by rw [h2]; linear_combination hy
    simp only [Vec2.length2, Vec2.sub_x, Vec2.sub_y, e1, e2]
    linear_combination ((A - t) * (A - t) + B * B) * hu

/-- **C39** `segment.distance_to` is the distance to the segment. Partial: for segments with `length >= 0`;
`from_normal` and assignments to `length` can make it negative, see `C39_violated`. -/
theorem C39_distance_partial (s : LineSegment ℝ) (h : s.Frame) (hl : 0 ≤ s.length) (p : Vec2 ℝ) :
    IsDist s.Pt p (s.distanceTo p) Vec2.distanceTo := by
  obtain ⟨A, B, hA, hB, hlen⟩ := seg_facts h p
  have hdist : s.distanceTo p = if A < 0 then (p - s.anchor).length else if A > s.length then (p - s.end').length
      else |B| := by
    simp only [LineSegment.distanceTo, Vec2.copy_eq, pyabs_eq_abs, ← hA, hB]
  have hanc : (p - s.anchor).length2 = A * A + B * B := by
    have := hlen 0 s.anchor (by simp) (by simp); simpa using this
  have hend : (p - s.end').length2 = (A - s.length) * (A - s.length) + B * B :=
    hlen s.length s.end' (by rw [s.end_x]; ring) (by rw [s.end_y]; ring)
  have hpt := LineSegment.pt_iff hl
  rw [hdist]
  unfold IsDist
  simp only [hpt]
  by_cases h1 : A < 0
  · rw [if_pos h1]
    refine ⟨⟨s.anchor, ⟨0, le_rfl, hl, by simp, by simp⟩, distanceTo_eq_length _ _⟩, ?_⟩
    rintro q ⟨t, ht0, ht1, hx, hy⟩
    rw [distanceTo_eq_length, le_length_iff (length_nonneg _), length_mul_self, hlen t q hx hy, hanc]
    nlinarith
  · rw [if_neg h1]
    by_cases h2 : A > s.length
    · rw [if_pos h2]
      refine ⟨⟨s.end', ⟨s.length, hl, le_rfl, by rw [s.end_x]; ring, by rw [s.end_y]; ring⟩,
        distanceTo_eq_length _ _⟩, ?_⟩
      rintro q ⟨t, ht0, ht1, hx, hy⟩
      rw [distanceTo_eq_length, le_length_iff (length_nonneg _), length_mul_self, hlen t q hx hy, hend]
      nlinarith
    · rw [if_neg h2]
      refine ⟨⟨⟨s.anchor.x + A * s.direction.x, s.anchor.y + A * s.direction.y⟩,
        ⟨A, not_lt.mp h1, not_lt.mp h2, rfl, rfl⟩, ?_⟩, ?_⟩
      · rw [distanceTo_eq_length, length_eq_iff (abs_nonneg _), abs_mul_abs_self, hlen A _ rfl rfl]; ring
      · rintro q ⟨t, ht0, ht1, hx, hy⟩
        rw [distanceTo_eq_length, le_length_iff (abs_nonneg _), abs_mul_abs_self, hlen t q hx hy]
        nlinarith [mul_self_nonneg (A - t)]

/-- **C39** contains_point: within EPSILON of the segment. -/
theorem C39_contains_partial (eps : ℝ) (s : LineSegment ℝ) (h : s.Frame) (hl : 0 ≤ s.length) (p : Vec2 ℝ) :
    s.containsPoint eps p = true ↔ ∃ q, s.Pt q ∧ p.distanceTo q < eps := by
  obtain ⟨⟨q, hq, hd⟩, hle⟩ := C39_distance_partial s h hl p
  simp only [LineSegment.containsPoint, decide_eq_true_eq]
  constructor
  · intro h'; exact ⟨q, hq, by rw [hd]; exact h'⟩
  · rintro ⟨q', hq', h'⟩; exact lt_of_le_of_lt (hle q' hq') h'

/-- **C39** `length >= 0` holds for every constructor (`from_normal` with `start <= end`) and is kept by every change
except an assignment of a negative `length`. -/
theorem C39_length_nonneg (eps : ℝ) (h0 : 0 < eps) (c : SegCtor) (s : LineSegment ℝ) (h : c.build eps = .ok s)
    (hc : ∀ n o a b, c = .fromNormal n o a b → a ≤ b) (ops : List SegOp)
    (hops : ∀ op ∈ ops, ∀ l, op = .setLength l → 0 ≤ l) : 0 ≤ (SegOp.run eps s ops).length := by
  have hs : 0 ≤ s.length := by
    cases c with
    | new a v =>
      simp only [SegCtor.build, LineSegment.new] at h
      rcases setVector_cases h0 ⟨⟨v, v⟩, a, 0⟩ v with ⟨e1, -, -, e2⟩ | e
      · rcases hs : LineSegment.setVector eps ⟨⟨v, v⟩, a, 0⟩ v with ⟨r, s'⟩
        rw [hs] at h e1 e2
        simp only at e1; subst e1
        obtain rfl := Except.ok.inj h
        exact e2
      · rw [e] at h; cases h
    | fromPoints ps =>
      simp only [SegCtor.build] at h
      rcases ps with _ | ⟨p, ps⟩
      · simp [LineSegment.fromPoints] at h
      · simp only [LineSegment.fromPoints, Vec2.copy_eq] at h
        split at h
        · cases h
        · rename_i s' hs
          split at h
          · obtain rfl := Except.ok.inj h
            split at hs
            · rcases setVector_cases h0 ⟨⟨p, p⟩, p, 0⟩ (LineSegment.furthestLoop p ps 0 p - p) with ⟨-, -, -, e2⟩ | e
              · rw [hs] at e2; exact e2
              · rw [e] at hs; cases hs
            · rw [Prod.mk.injEq] at hs; rw [← hs.2]
          · cases h
    | fromNormal n o a b =>
      have hab := hc n o a b rfl
      simp only [SegCtor.build, LineSegment.fromNormal, bind, Except.bind] at h
      split at h
      · cases h
      · obtain rfl := Except.ok.inj h
        simp only [mul_one]; linarith
  clear h
  unfold SegOp.run
  induction ops generalizing s with
  | nil => exact hs
  | cons op ops ih =>
    refine ih _ (fun op' h' => hops op' (List.mem_cons_of_mem _ h')) ?_
    have hop := hops op List.mem_cons_self
    cases op with
    | setDirection v => exact hs
    | setNormal v => exact hs
    | setAnchor o => exact hs
    | setLength o => exact hop o rfl
    | setVector v =>
      rcases setVector_cases h0 s v with ⟨-, -, -, e⟩ | e
      · exact e
      · simp only [SegOp.exec, e]; exact hs
    | setEnd v =>
      simp only [SegOp.exec, LineSegment.setEnd, Vec2.copy_eq]
      rcases setVector_cases h0 s (v - s.anchor) with ⟨-, -, -, e⟩ | e
      · exact e
      · simp only [e]; exact hs
    | imul T =>
      simp only [SegOp.exec, LineSegment.imul]
      rcases hc : s.setVector eps (T.apply s.points.2 - T.apply s.points.1) with ⟨r, s'⟩
      rcases setVector_cases h0 s (T.apply s.points.2 - T.apply s.points.1) with ⟨e1, -, -, e2⟩ | e
      · rw [hc] at e1 e2
        simp only at e1; subst e1
        exact e2
      · rw [hc] at e
        obtain ⟨rfl, rfl⟩ := Prod.mk.inj e
        exact hs

/-- **C39** violated: `LineSegment.from_normal((1,0), 0, 1, -1)` runs from (0,1) to (0,-1) and contains the origin, but
`distance_to((0,0))` is 1: the end distance is smaller than the start distance, so `length` is -2. -/
theorem C39_violated : ∃ s : LineSegment ℝ, LineSegment.fromNormal (1/100000) ⟨1, 0⟩ 0 1 (-1) = .ok s ∧
    s.Frame ∧ s.Pt ⟨0, 0⟩ ∧ s.distanceTo ⟨0, 0⟩ = 1 ∧ s.length = -2 := by
  have hn : Lin.ofNormal (1/100000) (⟨1, 0⟩ : Vec2 ℝ) = .ok ⟨⟨0, 1⟩, ⟨1, 0⟩⟩ := by
    rw [ofNormal_long (by norm_num) (by norm_num) (by rw [len10]; norm_num), unit10]; norm_num
  refine ⟨⟨⟨⟨0, 1⟩, ⟨1, 0⟩⟩, ⟨0, 1⟩, -2⟩, ?_, ?_, ?_, ?_, rfl⟩
  · simp only [LineSegment.fromNormal, hn]
    change Except.ok _ = Except.ok _
    congr 2
    · ext <;> simp
    · norm_num
  · have := Lin.frame_mk (dx := 0) (dy := 1) (by norm_num)
    simpa using this
  · refine ⟨1/2, by norm_num, by norm_num, ?_, ?_⟩
    · simp [LineSegment.end']
    · simp [LineSegment.end']
  · have : (⟨0, -1⟩ : Vec2 ℝ).length = 1 := by rw [unit_iff]; norm_num
    have e : (⟨0, 0⟩ - ⟨0, 1⟩ : Vec2 ℝ) = ⟨0, -1⟩ := by ext <;> simp
    simp only [LineSegment.distanceTo, Vec2.copy_eq, e, Vec2.dot, this]
    norm_num

/-! ### C40 -/

theorem LineSegment.new_ok {eps : ℝ} (h0 : 0 < eps) (h1 : eps < 1) (a : Vec2 ℝ) {v : Vec2 ℝ}
    (h : v = Vec2.null ∨ eps < v.length) :
    LineSegment.new eps a v = .ok ⟨⟨segDir v, ⟨(segDir v).y, -(segDir v).x⟩⟩, a, v.length⟩ := by
  simp only [LineSegment.new, setVector_ok h0 h1 _ h, Vec2.copy_eq]

/-- **C40** `LineSegment(a, v)`: start, end, length, vector and midpoint; a null vector is accepted, a non-null vector of
length at most EPSILON is refused. -/
theorem C40_new (eps : ℝ) (h0 : 0 < eps) (h1 : eps < 1) (a v : Vec2 ℝ) :
    ((v = Vec2.null ∨ eps < v.length) → ∃ s, LineSegment.new eps a v = .ok s ∧ s.Frame ∧ s.anchor = a ∧
      s.end' = a + v ∧ s.length = v.length ∧ s.vector = v ∧ s.mid = a.lerp (a + v) (1 / 2) ∧
      s.points = (a, a + v) ∧ ∀ p, s.Pt p ↔ OnSeg a (a + v) p) ∧
    ((v ≠ Vec2.null ∧ v.length ≤ eps) → LineSegment.new eps a v = .error .valueError) := by
  constructor
  · intro h
    have hs := segDir_smul v
    have hx : (segDir v).x * v.length = v.x := congrArg Vec2.x hs
    have hy : (segDir v).y * v.length = v.y := congrArg Vec2.y hs
    have he : (⟨⟨segDir v, ⟨(segDir v).y, -(segDir v).x⟩⟩, a, v.length⟩ : LineSegment ℝ).end' = a + v := by
      simp only [LineSegment.end']; rw [hs]
    refine ⟨_, LineSegment.new_ok h0 h1 a h, Lin.frame_mk (segDir_unit v), rfl, he, rfl, hs, ?_, ?_, ?_⟩
    · simp only [LineSegment.mid]
      ext <;> simp only [Vec2.lerp, Vec2.add_x, Vec2.add_y, Vec2.smul_x, Vec2.smul_y]
      · rw [← hx]; ring
      · rw [← hy]; ring
    · simp only [LineSegment.points]; rw [hs]
    · intro p; unfold LineSegment.Pt; rw [he]
  · rintro ⟨hv, hl⟩
    simp only [LineSegment.new, setVector_error h0 _ hv hl]

/-- **C40** assigning `end` keeps the start and moves the end there; assigning `vector` keeps the start. -/
theorem C40_set_end (eps : ℝ) (h0 : 0 < eps) (h1 : eps < 1) (s : LineSegment ℝ) (e : Vec2 ℝ)
    (h : e = s.anchor ∨ eps < s.anchor.distanceTo e) :
    ∃ s', s.setEnd eps e = (.ok (), s') ∧ s'.Frame ∧ s'.anchor = s.anchor ∧ s'.end' = e ∧
      s'.length = s.anchor.distanceTo e := by
  have hd : s.anchor.distanceTo e = (e - s.anchor).length := by
    rw [distanceTo_eq_length, length_eq_iff (length_nonneg _), length_mul_self]
    simp only [Vec2.length2, Vec2.sub_x, Vec2.sub_y]; ring
  have h' : e - s.anchor = Vec2.null ∨ eps < (e - s.anchor).length := by
    rcases h with rfl | h
    · left; ext <;> simp
    · right; rw [← hd]; exact h
  refine ⟨_, setVector_ok h0 h1 s (v := e.copy - s.anchor) (by simpa using h'), Lin.frame_mk (segDir_unit _),
    rfl, ?_, by rw [hd, Vec2.copy_eq]⟩
  simp only [LineSegment.end']
  rw [segDir_smul]; ext <;> simp

/-- **C40** project: never farther than the distance, on the segment or less than EPSILON beyond an end; outside the two
EPSILON bands it is the closest point. -/
theorem C40_project (eps : ℝ) (h0 : 0 ≤ eps) (h1 : eps < 1) (s : LineSegment ℝ) (h : s.Frame) (hl : 0 ≤ s.length)
    (p : Vec2 ℝ) :
    ∃ q, s.project eps p = .ok q ∧ p.distanceTo q ≤ s.distanceTo p ∧
      (s.Pt q ∨ ∃ a, s.Pt a ∧ q.distanceTo a < eps) ∧
      ((0 ≤ s.direction.dot (p - s.anchor) ∧ s.direction.dot (p - s.anchor) ≤ s.length ∨
        s.pointBehind eps p = true ∨ s.pointAhead eps p = true) →
        s.Pt q ∧ ∀ r, s.Pt r → p.distanceTo q ≤ p.distanceTo r) := by
  have hD := C39_distance_partial s h hl p
  obtain ⟨A, B, hA, hB, hlen⟩ := seg_facts h p
  have hu : s.direction.x * s.direction.x + s.direction.y * s.direction.y = 1 := unit_iff.mp h.1
  have hdist : s.distanceTo p = if A < 0 then (p - s.anchor).length else if A > s.length then (p - s.end').length
      else |B| := by
    simp only [LineSegment.distanceTo, Vec2.copy_eq, pyabs_eq_abs, ← hA, hB]
  have hanc : (p - s.anchor).length2 = A * A + B * B := by
    have := hlen 0 s.anchor (by simp) (by simp); simpa using this
  have hend : (p - s.end').length2 = (A - s.length) * (A - s.length) + B * B :=
    hlen s.length s.end' (by rw [s.end_x]; ring) (by rw [s.end_y]; ring)
  have hpt := LineSegment.pt_iff hl
  have e2 : Vec2.dot ⟨s.direction.x * A, s.direction.y * A⟩ s.direction = A := by
    simp only [Vec2.dot]; linear_combination A * hu
  have hpr : s.project eps p = .ok (if A ≤ -eps then s.anchor else if A ≥ s.length + eps then s.end'
      else ⟨s.direction.x * A + s.anchor.x, s.direction.y * A + s.anchor.y⟩) := by
    simp only [LineSegment.project, Vec2.copy_eq, project_unit h0 h1 hu, bind, Except.bind, ← hA, e2]
    split
    · rfl
    · split <;> rfl
  have hbehind : s.pointBehind eps p = true ↔ A ≤ -eps := by
    simp only [LineSegment.pointBehind, Vec2.copy_eq, ← hA, decide_eq_true_eq]
  have hahead : s.pointAhead eps p = true ↔ A ≥ s.length + eps := by
    simp only [LineSegment.pointAhead, Vec2.copy_eq, ← hA, decide_eq_true_eq]
  have hancPt : s.Pt s.anchor := ⟨0, le_rfl, zero_le_one, by simp, by simp⟩
  have hendPt : s.Pt s.end' := ⟨1, zero_le_one, le_rfl, by ring, by ring⟩
  have hself : ∀ t (q : Vec2 ℝ), q.x = s.anchor.x + t * s.direction.x → q.y = s.anchor.y + t * s.direction.y →
      ∀ u (a : Vec2 ℝ), a.x = s.anchor.x + u * s.direction.x → a.y = s.anchor.y + u * s.direction.y →
        (q - a).length2 = (t - u) * (t - u) := by
    intro t q hx hy u a hx' hy'
    simp only [Vec2.length2, Vec2.sub_x, Vec2.sub_y, hx, hy, hx', hy']
    linear_combination (t - u) * (t - u) * hu
  refine ⟨_, hpr, ?_⟩
  rw [hbehind, hahead, ← hA]
  by_cases c1 : A ≤ -eps
  · rw [if_pos c1]
    have hle : p.distanceTo s.anchor ≤ s.distanceTo p := by
      rw [hdist, distanceTo_eq_length]
      split
      · exact le_rfl
      · have hA0 : A = 0 := by linarith
        split
        · linarith
        · rw [length_le_iff (abs_nonneg _), abs_mul_abs_self, hanc, hA0]; simp
    exact ⟨hle, Or.inl hancPt, fun _ => ⟨hancPt, fun r hr => hle.trans (hD.2 r hr)⟩⟩
  · rw [if_neg c1]
    by_cases c2 : A ≥ s.length + eps
    · rw [if_pos c2]
      have hle : p.distanceTo s.end' ≤ s.distanceTo p := by
        rw [hdist, distanceTo_eq_length]
        split
        · linarith
        · split
          · exact le_rfl
          · have hA0 : A = s.length := by linarith
            rw [length_le_iff (abs_nonneg _), abs_mul_abs_self, hend, hA0]; simp
      exact ⟨hle, Or.inl hendPt, fun _ => ⟨hendPt, fun r hr => hle.trans (hD.2 r hr)⟩⟩
    · rw [if_neg c2]
      have hq := hlen A ⟨s.direction.x * A + s.anchor.x, s.direction.y * A + s.anchor.y⟩ (by simp only; ring) (by simp only; ring)
      have hle : p.distanceTo ⟨s.direction.x * A + s.anchor.x, s.direction.y * A + s.anchor.y⟩ ≤ s.distanceTo p := by
        rw [hdist, distanceTo_eq_length]
        split
        · rw [length_le_iff (length_nonneg _), length_mul_self, hq, hanc]; nlinarith [mul_self_nonneg A]
        · split
          · rw [length_le_iff (length_nonneg _), length_mul_self, hq, hend]; nlinarith [mul_self_nonneg (A - s.length)]
          · rw [length_le_iff (abs_nonneg _), abs_mul_abs_self, hq]; linarith
      have hin : 0 ≤ A → A ≤ s.length → s.Pt ⟨s.direction.x * A + s.anchor.x, s.direction.y * A + s.anchor.y⟩ :=
        fun a b => (hpt _).mpr ⟨A, a, b, by simp only; ring, by simp only; ring⟩
      refine ⟨hle, ?_, ?_⟩
      · rcases lt_or_ge A 0 with hA0 | hA0
        · right; refine ⟨s.anchor, hancPt, ?_⟩
          rw [distanceTo_eq_length, length_lt_iff h0,
            hself A _ (by simp only; ring) (by simp only; ring) 0 s.anchor (by ring) (by ring)]
          have := not_le.mp c1; nlinarith
        · rcases lt_or_ge s.length A with hA1 | hA1
          · right; refine ⟨s.end', hendPt, ?_⟩
            rw [distanceTo_eq_length, length_lt_iff h0,
              hself A _ (by simp only; ring) (by simp only; ring) s.length s.end' (by rw [s.end_x]; ring) (by rw [s.end_y]; ring)]
            have := not_le.mp c2; nlinarith
          · left; exact hin hA0 hA1
      · rintro (⟨a, b⟩ | a | a)
        · exact ⟨hin a b, fun r hr => hle.trans (hD.2 r hr)⟩
        · exact absurd a c1
        · exact absurd a c2

/-- **C40** behind, ahead, left and right exclude each other (EPSILON > 0, `length >= 0`). -/
theorem C40_sides (eps : ℝ) (h0 : 0 < eps) (s : LineSegment ℝ) (hl : 0 ≤ s.length) (p : Vec2 ℝ) :
    ¬ (s.pointBehind eps p = true ∧ s.pointAhead eps p = true) ∧
    ¬ (s.pointBehind eps p = true ∧ s.pointLeft eps p = true) ∧
    ¬ (s.pointBehind eps p = true ∧ s.pointRight eps p = true) ∧
    ¬ (s.pointAhead eps p = true ∧ s.pointLeft eps p = true) ∧
    ¬ (s.pointAhead eps p = true ∧ s.pointRight eps p = true) ∧
    ¬ (s.pointLeft eps p = true ∧ s.pointRight eps p = true) := by
  simp only [LineSegment.pointBehind, LineSegment.pointAhead, LineSegment.pointLeft, LineSegment.pointRight,
    Bool.and_eq_true, decide_eq_true_eq]
  refine ⟨?_, ?_, ?_, ?_, ?_, ?_⟩
  · rintro ⟨a, b⟩; linarith
  · rintro ⟨a, ⟨-, b⟩, -⟩; linarith
  · rintro ⟨a, ⟨-, b⟩, -⟩; linarith
  · rintro ⟨a, ⟨b, -⟩, -⟩; linarith
  · rintro ⟨a, ⟨b, -⟩, -⟩; linarith
  · rintro ⟨⟨-, a⟩, -, b⟩; linarith

/-- **C40** left and right in terms of the along and across coordinates. -/
theorem C40_sides_meaning (eps : ℝ) (s : LineSegment ℝ) (h : s.Frame) (p : Vec2 ℝ) :
    (s.pointLeft eps p = true ↔ -eps < s.direction.dot (p - s.anchor) ∧
      s.direction.dot (p - s.anchor) < s.length + eps ∧ eps ≤ s.direction.cross (p - s.anchor)) ∧
    (s.pointRight eps p = true ↔ -eps < s.direction.dot (p - s.anchor) ∧
      s.direction.dot (p - s.anchor) < s.length + eps ∧ s.direction.cross (p - s.anchor) ≤ -eps) := by
  obtain ⟨dx, dy, hu, hd, hn⟩ := h.eqs
  simp only [LineSegment.pointLeft, LineSegment.pointRight, Bool.and_eq_true, decide_eq_true_eq, Vec2.copy_eq,
    Vec2.dot, Vec2.cross, hd, hn, gt_iff_lt, ge_iff_le]
  constructor <;> constructor
  · rintro ⟨⟨a, b⟩, c⟩; exact ⟨b, a, by linarith⟩
  · rintro ⟨a, b, c⟩; exact ⟨⟨b, a⟩, by linarith⟩
  · rintro ⟨⟨a, b⟩, c⟩; exact ⟨b, a, by linarith⟩
  · rintro ⟨a, b, c⟩; exact ⟨⟨b, a⟩, by linarith⟩

example : ∃ s, LineSegment.new (1/100000) ⟨1, 1⟩ (⟨3, 4⟩ : Vec2 ℝ) = .ok s ∧ s.Frame ∧ 0 ≤ s.length := by
  obtain ⟨s, h, hf, -, -, hl, -⟩ := (C40_new (1/100000) (by norm_num) (by norm_num) ⟨1, 1⟩ ⟨3, 4⟩).1
    (Or.inr (by rw [len34]; norm_num))
  exact ⟨s, h, hf, by rw [hl]; exact length_nonneg _⟩

/-! ### C41 -/

theorem furthest_spec (start : Vec2 ℝ) : ∀ (ps : List (Vec2 ℝ)) (d : ℝ) (e : Vec2 ℝ), d = (e - start).length2 →
    (LineSegment.furthestLoop start ps d e ∈ e :: ps) ∧
    ∀ q ∈ e :: ps, (q - start).length2 ≤ (LineSegment.furthestLoop start ps d e - start).length2
  | [], d, e, h => by simp [LineSegment.furthestLoop]
  | p :: ps, d, e, h => by
    simp only [LineSegment.furthestLoop, Vec2.copy_eq]
    split
    · rename_i hc
      obtain ⟨i1, i2⟩ := furthest_spec start ps _ p rfl
      refine ⟨List.mem_cons_of_mem _ i1, ?_⟩
      intro q hq
      rcases List.mem_cons.mp hq with rfl | hq
      · have := i2 p List.mem_cons_self
        rw [h] at hc; linarith
      · exact i2 q hq
    · rename_i hc
      obtain ⟨i1, i2⟩ := furthest_spec start ps d e h
      refine ⟨?_, ?_⟩
      · rcases List.mem_cons.mp i1 with h' | h'
        · rw [h']; exact List.mem_cons_self
        · exact List.mem_cons_of_mem _ (List.mem_cons_of_mem _ h')
      · intro q hq
        rcases List.mem_cons.mp hq with rfl | hq
        · exact i2 _ List.mem_cons_self
        · rcases List.mem_cons.mp hq with rfl | hq
          · have := i2 e List.mem_cons_self
            rw [h] at hc; linarith
          · exact i2 q (List.mem_cons_of_mem _ hq)

/-- `from_points` builds the segment from the first point to the furthest one and checks the rest. -/
theorem LineSegment.fromPoints_eq {eps : ℝ} (h0 : 0 < eps) (h1 : eps < 1) (p : Vec2 ℝ) (ps : List (Vec2 ℝ)) :
    LineSegment.fromPoints eps (p :: ps) =
      match LineSegment.new eps p (LineSegment.furthestLoop p ps 0 p - p) with
      | .ok s => if ∀ q ∈ ps, s.containsPoint eps q = true then .ok s else .error .valueError
      | .error e => .error e := by
  simp only [LineSegment.fromPoints, Vec2.copy_eq]
  set e := LineSegment.furthestLoop p ps 0 p
  have hall : ∀ s : LineSegment ℝ, ((ps.map Vec2.copy).all (fun p => s.containsPoint eps p) = true) =
      (∀ q ∈ ps, s.containsPoint eps q = true) := by
    intro s; simp
  simp only [hall]
  by_cases he : e = p
  · have hnull : e - p = Vec2.null := by rw [he]; ext <;> simp
    rw [LineSegment.new_ok h0 h1 p (Or.inl hnull), hnull]
    have hd := setDirection_long h0.le h1.le ⟨p, p⟩ (v := ⟨1, 0⟩) (by rw [len10]; exact h1)
    rw [unit10] at hd
    have hlen : (Vec2.null : Vec2 ℝ).length = 0 := length_eq_zero.mpr rfl
    have hb : (e != p) = false := by rw [he]; simp
    simp only [hb, Bool.false_eq_true, if_false, hd, segDir, if_true, hlen]
  · have hb : (e != p) = true := by rw [bne_iff_ne]; exact he
    have hnn : e - p ≠ Vec2.null := by
      intro h
      have hx := congrArg Vec2.x h; have hy := congrArg Vec2.y h
      simp only [Vec2.sub_x, Vec2.sub_y, Vec2.null_x, Vec2.null_y] at hx hy
      exact he (Vec2.ext (by linarith) (by linarith))
    rcases lt_or_ge eps (e - p).length with hl | hl
    · rw [LineSegment.new_ok h0 h1 p (Or.inr hl)]
      simp only [hb, if_true, setVector_ok h0 h1 _ (Or.inr hl)]
    · have : LineSegment.new eps p (e - p) = .error .valueError := (C40_new eps h0 h1 p (e - p)).2 ⟨hnn, hl⟩
      rw [this]
      simp only [hb, if_true, setVector_error h0 _ hnn hl]

/-- **C41** `LineSegment.from_points`: from the first point to a given point furthest from it; it succeeds exactly when
that extent is zero or more than EPSILON and every point is within EPSILON of the segment. -/
theorem C41_from_points (eps : ℝ) (h0 : 0 < eps) (h1 : eps < 1) (p : Vec2 ℝ) (ps : List (Vec2 ℝ)) :
    ∃ e ∈ p :: ps, (∀ q ∈ p :: ps, p.distanceTo q ≤ p.distanceTo e) ∧
      (((e = p ∨ eps < p.distanceTo e) ∧ ∀ q ∈ p :: ps, ∃ r, OnSeg p e r ∧ q.distanceTo r < eps) →
        ∃ s, LineSegment.fromPoints eps (p :: ps) = .ok s ∧ s.Frame ∧ s.anchor = p ∧ s.end' = e ∧
          s.length = p.distanceTo e) ∧
      (¬ ((e = p ∨ eps < p.distanceTo e) ∧ ∀ q ∈ p :: ps, ∃ r, OnSeg p e r ∧ q.distanceTo r < eps) →
        LineSegment.fromPoints eps (p :: ps) = .error .valueError) := by
  obtain ⟨f1, f2⟩ := furthest_spec p ps 0 p (by simp [Vec2.length2])
  rw [LineSegment.fromPoints_eq h0 h1]
  set e := LineSegment.furthestLoop p ps 0 p
  have hdist : ∀ q : Vec2 ℝ, p.distanceTo q = (q - p).length := by
    intro q
    rw [distanceTo_eq_length, length_eq_iff (length_nonneg _), length_mul_self]
    simp only [Vec2.length2, Vec2.sub_x, Vec2.sub_y]; ring
  have hnull : e - p = Vec2.null ↔ e = p := by
    constructor
    · intro h
      have hx := congrArg Vec2.x h; have hy := congrArg Vec2.y h
      simp only [Vec2.sub_x, Vec2.sub_y, Vec2.null_x, Vec2.null_y] at hx hy
      exact Vec2.ext (by linarith) (by linarith)
    · intro h; rw [h]; ext <;> simp
  refine ⟨e, f1, ?_, ?_, ?_⟩
  · intro q hq
    rw [hdist, hdist, length_le_iff (length_nonneg _), length_mul_self]
    exact f2 q hq
  all_goals rw [hdist, ← hnull]
  · rintro ⟨hc, hall⟩
    obtain ⟨s, e1, e2, e3, e4, e5, -, -, -, e6⟩ := (C40_new eps h0 h1 p (e - p)).1 hc
    have hpe : p + (e - p) = e := by ext <;> simp
    rw [hpe] at e4 e6
    have hl : 0 ≤ s.length := by rw [e5]; exact length_nonneg _
    rw [e1]
    refine ⟨s, ?_, e2, e3, e4, e5⟩
    simp only
    rw [if_pos]
    intro q hq
    rw [C39_contains_partial eps s e2 hl]
    obtain ⟨r, hr, hd⟩ := hall q (List.mem_cons_of_mem _ hq)
    exact ⟨r, (e6 r).mpr hr, hd⟩
  · intro hc
    by_cases hc1 : e - p = Vec2.null ∨ eps < (e - p).length
    · obtain ⟨s, e1, e2, e3, e4, e5, -, -, -, e6⟩ := (C40_new eps h0 h1 p (e - p)).1 hc1
      have hpe : p + (e - p) = e := by ext <;> simp
      rw [hpe] at e4 e6
      have hl : 0 ≤ s.length := by rw [e5]; exact length_nonneg _
      rw [e1]
      simp only
      rw [if_neg]
      intro hall
      refine hc ⟨hc1, ?_⟩
      intro q hq
      rcases List.mem_cons.mp hq with rfl | hq
      · refine ⟨q, ⟨0, le_rfl, zero_le_one, by simp, by simp⟩, ?_⟩
        rw [distanceTo_eq]; simpa using h0
      · obtain ⟨r, hr, hd⟩ := (C39_contains_partial eps s e2 hl q).mp (hall q hq)
        exact ⟨r, (e6 r).mp hr, hd⟩
    · push Not at hc1
      rw [(C40_new eps h0 h1 p (e - p)).2 hc1]

/-- **C41** no points: ValueError. -/
theorem C41_empty (eps : ℝ) : LineSegment.fromPoints eps ([] : List (Vec2 ℝ)) = .error .valueError := rfl

end Planar
