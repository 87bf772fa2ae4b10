import Verif.Props.Segment
import Verif.Model.Box
/- Properties C19 and C42 for lines, rays and segments; C11 for the linear shapes. -/
set_option linter.unusedSectionVars false
namespace Planar
open Spec

open Classical in
theorem firstTwoDistinct_pair (a b : Vec2 ℝ) : firstTwoDistinct [a, b] =
    if a = b then .error .valueError else .ok (a, b, []) := by
  by_cases h : a = b
  · subst h
    simp only [firstTwoDistinct, firstTwoDistinct.go, Vec2.copy_eq, if_true]
    rw [if_pos (beq_self_eq_true a)]
  · rw [if_neg h]; exact firstTwoDistinct_replicate 0 a b [] h

theorem applyPts_pair (T : Affine ℝ) (a b : Vec2 ℝ) : T.applyPts [a, b] = [T.apply a, T.apply b] := rfl

theorem sub_null_of_eq {a b : Vec2 ℝ} (h : a = b) : (b - a).length = 0 := by
  subst h; rw [length_eq_zero]; ext <;> simp

/-! ### Line -/

theorem Line.fromPoints_pair {eps : ℝ} (h0 : 0 < eps) (h1 : eps < 1) (a b : Vec2 ℝ) :
    Line.fromPoints eps [a, b] = Line.new eps a (b - a) := by
  by_cases h : a = b
  · have hf := firstTwoDistinct_pair a b
    rw [if_pos h] at hf
    rw [Line.new_error h0 (by rw [sub_null_of_eq h]; exact h0.le)]
    simp only [Line.fromPoints, hf]; rfl
  · have hf := firstTwoDistinct_pair a b
    rw [if_neg h] at hf
    rw [Line.fromPoints_eq h0 h1 hf]
    split
    · rename_i hl
      rw [Line.new_ok h0 h1 hl]; simp
    · rename_i hl
      rw [Line.new_error h0 (not_lt.mp hl)]

theorem Line.imul_eq {eps : ℝ} (h0 : 0 < eps) (h1 : eps < 1) (l : Line ℝ) (T : Affine ℝ) :
    l.imul eps T = match l.transformed eps T with
      | .ok l' => (.ok (), l')
      | .error e => (.error e, l) := by
  unfold Line.transformed
  rw [applyPts_pair, Line.fromPoints_pair h0 h1]
  simp only [Line.imul, Line.setDirection]
  rcases lt_or_ge eps (T.apply l.points.2 - T.apply l.points.1).length with h | h
  · rw [setDirection_long h0.le h1.le _ h, Line.new_ok h0 h1 h]
  · rw [setDirection_short h0 _ h, Line.new_error h0 h]

/-- **C19** (Line) `line *= T` leaves the line that `T * line` builds, or both raise the same exception (and the line is
left as it was). -/
theorem C19_line (eps : ℝ) (h0 : 0 < eps) (h1 : eps < 1) (l : Line ℝ) (T : Affine ℝ) :
    (∀ l', l.transformed eps T = .ok l' → l.imul eps T = (.ok (), l')) ∧
    (∀ e, l.transformed eps T = .error e → e = .valueError ∧ l.imul eps T = (.error .valueError, l)) := by
  rw [Line.imul_eq h0 h1]
  constructor
  · intro l' h; rw [h]
  · intro e h
    have he : e = .valueError := by
      unfold Line.transformed at h
      exact (C37_from_points eps h0 h1 _).1 e h
    subst he; rw [h]; exact ⟨rfl, rfl⟩

/-- **C42** (Line) the points of `T * line` are the images of the points of the line; it raises ValueError exactly when
the image of the direction is null within EPSILON. -/
theorem C42_line (eps : ℝ) (h0 : 0 < eps) (h1 : eps < 1) (l : Line ℝ) (T : Affine ℝ) :
    (∀ l', l.transformed eps T = .ok l' → l'.Frame ∧ ∀ q, l'.Pt q ↔ ∃ p, l.Pt p ∧ q = T.apply p) ∧
    ((∃ l', l.transformed eps T = .ok l') ↔ eps < (T.apply l.direction - T.apply ⟨0, 0⟩).length) := by
  have hw : T.apply l.points.2 - T.apply l.points.1 = T.apply l.direction - T.apply ⟨0, 0⟩ := by
    ext <;> simp [Line.points] <;> ring
  have hwx : (T.apply l.points.2 - T.apply l.points.1).x = l.direction.x * T.a + l.direction.y * T.d := by
    rw [hw]; simp
  have hwy : (T.apply l.points.2 - T.apply l.points.1).y = l.direction.x * T.b + l.direction.y * T.e := by
    rw [hw]; simp
  unfold Line.transformed
  rw [applyPts_pair, Line.fromPoints_pair h0 h1]
  rcases lt_or_ge eps (T.apply l.points.2 - T.apply l.points.1).length with h | h
  · obtain ⟨m, e1, e2, ⟨t0, hx0, hy0⟩, e4⟩ := (C37_new eps h0 h1 (T.apply l.points.1) _).1 h
    rw [e1]
    have hpos := h0.trans h
    set L := (T.apply l.points.2 - T.apply l.points.1).length with hL
    have hdx : m.direction.x * L = l.direction.x * T.a + l.direction.y * T.d := by
      rw [← hwx, ← congrArg Vec2.x e4]; rfl
    have hdy : m.direction.y * L = l.direction.x * T.b + l.direction.y * T.e := by
      rw [← hwy, ← congrArg Vec2.y e4]; rfl
    have hne := hpos.ne'
    refine ⟨?_, ?_⟩
    · intro l' hl'
      obtain rfl := Except.ok.inj hl'
      refine ⟨e2, fun q => ⟨?_, ?_⟩⟩
      · rintro ⟨t, hx, hy⟩
        refine ⟨⟨l.points.1.x + (t - t0) / L * l.direction.x, l.points.1.y + (t - t0) / L * l.direction.y⟩,
          ⟨_, rfl, rfl⟩, ?_⟩
        have e5 : q.x = (T.apply l.points.1).x + (t - t0) / L * (m.direction.x * L) := by
          rw [hx, hx0]; field_simp; ring
        have e6 : q.y = (T.apply l.points.1).y + (t - t0) / L * (m.direction.y * L) := by
          rw [hy, hy0]; field_simp; ring
        rw [hdx] at e5; rw [hdy] at e6
        ext
        · rw [e5, Affine.apply_x, Affine.apply_x]; ring
        · rw [e6, Affine.apply_y, Affine.apply_y]; ring
      · rintro ⟨p, ⟨t, hx, hy⟩, rfl⟩
        refine ⟨t0 + t * L, ?_, ?_⟩
        · have : m.points.1.x + (t0 + t * L) * m.direction.x = (T.apply l.points.1).x + t * (m.direction.x * L) := by
            rw [hx0]; ring
          rw [this, hdx, Affine.apply_x, Affine.apply_x, hx, hy]; ring
        · have : m.points.1.y + (t0 + t * L) * m.direction.y = (T.apply l.points.1).y + t * (m.direction.y * L) := by
            rw [hy0]; ring
          rw [this, hdy, Affine.apply_y, Affine.apply_y, hx, hy]; ring
    · rw [← hw, ← hL]; simp [h]
  · rw [Line.new_error h0 h, ← hw]
    refine ⟨by simp, ?_⟩
    simpa using h

/-! ### Ray -/

theorem Ray.fromPoints_pair {eps : ℝ} (h0 : 0 < eps) (h1 : eps < 1) (a b : Vec2 ℝ) :
    Ray.fromPoints eps [a, b] = Ray.new eps a (b - a) := by
  by_cases h : a = b
  · have hf := firstTwoDistinct_pair a b
    rw [if_pos h] at hf
    rw [Ray.new_error h0 (by rw [sub_null_of_eq h]; exact h0.le)]
    simp only [Ray.fromPoints, hf]; rfl
  · have hf := firstTwoDistinct_pair a b
    rw [if_neg h] at hf
    rw [Ray.fromPoints_eq h0 h1 hf]
    split
    · rename_i hl
      rw [Ray.new_ok h0 h1 hl]; simp
    · rename_i hl
      rw [Ray.new_error h0 (not_lt.mp hl)]

/-- **C19** (Ray) `ray *= T` leaves the ray that `T * ray` builds, or both raise ValueError. -/
theorem C19_ray (eps : ℝ) (h0 : 0 < eps) (h1 : eps < 1) (l : Ray ℝ) (T : Affine ℝ) :
    (∀ l', l.transformed eps T = .ok l' → l.imul eps T = (.ok (), l')) ∧
    (∀ e, l.transformed eps T = .error e → e = .valueError ∧ l.imul eps T = (.error .valueError, l)) := by
  unfold Ray.transformed
  rw [applyPts_pair, Ray.fromPoints_pair h0 h1]
  simp only [Ray.imul, Ray.setDirection]
  rcases lt_or_ge eps (T.apply l.points.2 - T.apply l.points.1).length with h | h
  · rw [setDirection_long h0.le h1.le _ h, Ray.new_ok h0 h1 h]
    refine ⟨?_, by simp⟩
    intro l' hl'
    obtain rfl := Except.ok.inj hl'
    simp [Ray.setAnchor]
  · rw [setDirection_short h0 _ h, Ray.new_error h0 h]
    refine ⟨by simp, ?_⟩
    intro e he
    exact ⟨(Except.error.inj he).symm, rfl⟩

/-- **C42** (Ray). -/
theorem C42_ray (eps : ℝ) (h0 : 0 < eps) (h1 : eps < 1) (l : Ray ℝ) (T : Affine ℝ) :
    (∀ l', l.transformed eps T = .ok l' → l'.Frame ∧ l'.anchor = T.apply l.anchor ∧
      ∀ q, l'.Pt q ↔ ∃ p, l.Pt p ∧ q = T.apply p) ∧
    ((∃ l', l.transformed eps T = .ok l') ↔ eps < (T.apply l.direction - T.apply ⟨0, 0⟩).length) := by
  have hw : T.apply l.points.2 - T.apply l.points.1 = T.apply l.direction - T.apply ⟨0, 0⟩ := by
    ext <;> simp [Ray.points] <;> ring
  have hwx : (T.apply l.points.2 - T.apply l.points.1).x = l.direction.x * T.a + l.direction.y * T.d := by
    rw [hw]; simp
  have hwy : (T.apply l.points.2 - T.apply l.points.1).y = l.direction.x * T.b + l.direction.y * T.e := by
    rw [hw]; simp
  unfold Ray.transformed
  rw [applyPts_pair, Ray.fromPoints_pair h0 h1]
  rcases lt_or_ge eps (T.apply l.points.2 - T.apply l.points.1).length with h | h
  · obtain ⟨m, e1, e2, e3, e4⟩ := (C38_new eps h0 h1 (T.apply l.points.1) _).1 h
    rw [e1]
    have hpos := h0.trans h
    set L := (T.apply l.points.2 - T.apply l.points.1).length with hL
    have hdx : m.direction.x * L = l.direction.x * T.a + l.direction.y * T.d := by
      rw [← hwx, ← congrArg Vec2.x e4]; rfl
    have hdy : m.direction.y * L = l.direction.x * T.b + l.direction.y * T.e := by
      rw [← hwy, ← congrArg Vec2.y e4]; rfl
    have hne := hpos.ne'
    have ha : l.points.1 = l.anchor := rfl
    rw [ha] at e3
    refine ⟨?_, ?_⟩
    · intro l' hl'
      obtain rfl := Except.ok.inj hl'
      refine ⟨e2, e3, fun q => ⟨?_, ?_⟩⟩
      · rintro ⟨t, ht, hx, hy⟩
        refine ⟨⟨l.anchor.x + t / L * l.direction.x, l.anchor.y + t / L * l.direction.y⟩,
          ⟨_, div_nonneg ht hpos.le, rfl, rfl⟩, ?_⟩
        have e5 : q.x = (T.apply l.anchor).x + t / L * (m.direction.x * L) := by
          rw [hx, e3]; field_simp
        have e6 : q.y = (T.apply l.anchor).y + t / L * (m.direction.y * L) := by
          rw [hy, e3]; field_simp
        rw [hdx] at e5; rw [hdy] at e6
        ext
        · rw [e5, Affine.apply_x, Affine.apply_x]; ring
        · rw [e6, Affine.apply_y, Affine.apply_y]; ring
      · rintro ⟨p, ⟨t, ht, hx, hy⟩, rfl⟩
        refine ⟨t * L, mul_nonneg ht hpos.le, ?_, ?_⟩
        · have : m.anchor.x + (t * L) * m.direction.x = (T.apply l.anchor).x + t * (m.direction.x * L) := by
            rw [e3]; ring
          rw [this, hdx, Affine.apply_x, Affine.apply_x, hx, hy]; ring
        · have : m.anchor.y + (t * L) * m.direction.y = (T.apply l.anchor).y + t * (m.direction.y * L) := by
            rw [e3]; ring
          rw [this, hdy, Affine.apply_y, Affine.apply_y, hx, hy]; ring
    · rw [← hw, ← hL]; simp [h]
  · rw [Ray.new_error h0 h, ← hw]
    refine ⟨by simp, ?_⟩
    simpa using h

/-! ### LineSegment -/

theorem LineSegment.fromPoints_pair {eps : ℝ} (h0 : 0 < eps) (h1 : eps < 1) (a b : Vec2 ℝ) :
    LineSegment.fromPoints eps [a, b] = LineSegment.new eps a (b - a) := by
  rw [LineSegment.fromPoints_eq h0 h1]
  have hf : LineSegment.furthestLoop a [b] 0 a = b := by
    simp only [LineSegment.furthestLoop, Vec2.copy_eq]
    split
    · rfl
    · rename_i h
      have hz : (b - a).length2 = 0 := le_antisymm (not_lt.mp h) (length2_nonneg _)
      have hn := length2_eq_zero.mp hz
      have hx := congrArg Vec2.x hn; have hy := congrArg Vec2.y hn
      simp only [Vec2.sub_x, Vec2.sub_y, Vec2.null_x, Vec2.null_y] at hx hy
      exact Vec2.ext (by linarith) (by linarith)
  rw [hf]
  by_cases hc : b - a = Vec2.null ∨ eps < (b - a).length
  · obtain ⟨s, e1, e2, e3, e4, e5, -, -, -, e6⟩ := (C40_new eps h0 h1 a (b - a)).1 hc
    rw [e1]
    have hpe : a + (b - a) = b := by ext <;> simp
    rw [hpe] at e6
    simp only [List.mem_singleton, forall_eq]
    rw [if_pos]
    rw [C39_contains_partial eps s e2 (by rw [e5]; exact length_nonneg _)]
    refine ⟨b, (e6 b).mpr ⟨1, zero_le_one, le_rfl, by ring, by ring⟩, ?_⟩
    rw [distanceTo_eq]; simpa using h0
  · push Not at hc
    rw [(C40_new eps h0 h1 a (b - a)).2 hc]

/-- **C19** (LineSegment) `segment *= T` leaves the segment that `T * segment` builds, or both raise ValueError. -/
theorem C19_segment (eps : ℝ) (h0 : 0 < eps) (h1 : eps < 1) (l : LineSegment ℝ) (T : Affine ℝ) :
    (∀ l', l.transformed eps T = .ok l' → l.imul eps T = (.ok (), l')) ∧
    (∀ e, l.transformed eps T = .error e → e = .valueError ∧ l.imul eps T = (.error .valueError, l)) := by
  unfold LineSegment.transformed
  rw [applyPts_pair, LineSegment.fromPoints_pair h0 h1]
  simp only [LineSegment.imul]
  by_cases hc : T.apply l.points.2 - T.apply l.points.1 = Vec2.null ∨
      eps < (T.apply l.points.2 - T.apply l.points.1).length
  · rw [setVector_ok h0 h1 _ hc, LineSegment.new_ok h0 h1 _ hc]
    refine ⟨?_, by simp⟩
    intro l' hl'
    obtain rfl := Except.ok.inj hl'
    rfl
  · push Not at hc
    rw [setVector_error h0 _ hc.1 hc.2, (C40_new eps h0 h1 _ _).2 hc]
    refine ⟨by simp, ?_⟩
    intro e he
    exact ⟨(Except.error.inj he).symm, rfl⟩

/-- **C42** (LineSegment) whatever the sign of its length. -/
theorem C42_segment (eps : ℝ) (h0 : 0 < eps) (h1 : eps < 1) (l : LineSegment ℝ) (T : Affine ℝ) :
    (∀ l', l.transformed eps T = .ok l' → l'.Frame ∧ l'.anchor = T.apply l.anchor ∧ l'.end' = T.apply l.end' ∧
      ∀ q, l'.Pt q ↔ ∃ p, l.Pt p ∧ q = T.apply p) ∧
    ((∃ l', l.transformed eps T = .ok l') ↔
      T.apply l.end' = T.apply l.anchor ∨ eps < (T.apply l.anchor).distanceTo (T.apply l.end')) := by
  have hp1 : l.points.1 = l.anchor := rfl
  have hp2 : l.points.2 = l.end' := rfl
  unfold LineSegment.transformed
  rw [applyPts_pair, LineSegment.fromPoints_pair h0 h1, hp1, hp2]
  have hdist : (T.apply l.anchor).distanceTo (T.apply l.end') = (T.apply l.end' - T.apply l.anchor).length := by
    rw [distanceTo_eq_length, length_eq_iff (length_nonneg _), length_mul_self]
    simp only [Vec2.length2, Vec2.sub_x, Vec2.sub_y]; ring
  have hnull : T.apply l.end' = T.apply l.anchor ↔ T.apply l.end' - T.apply l.anchor = Vec2.null := by
    constructor
    · intro h; rw [h]; ext <;> simp
    · intro h
      have hx := congrArg Vec2.x h; have hy := congrArg Vec2.y h
      simp only [Vec2.sub_x, Vec2.sub_y, Vec2.null_x, Vec2.null_y] at hx hy
      exact Vec2.ext (by linarith) (by linarith)
  rw [hdist, hnull]
  by_cases hc : T.apply l.end' - T.apply l.anchor = Vec2.null ∨ eps < (T.apply l.end' - T.apply l.anchor).length
  · obtain ⟨m, e1, e2, e3, e4, e5, -, -, -, e6⟩ := (C40_new eps h0 h1 (T.apply l.anchor) _).1 hc
    have hpe : T.apply l.anchor + (T.apply l.end' - T.apply l.anchor) = T.apply l.end' := by ext <;> simp <;> ring
    rw [hpe] at e4 e6
    rw [e1]
    refine ⟨?_, by simp [hc]⟩
    intro l' hl'
    obtain rfl := Except.ok.inj hl'
    refine ⟨e2, e3, e4, fun q => ?_⟩
    rw [e6]
    constructor
    · rintro ⟨t, h0, h1, hx, hy⟩
      refine ⟨⟨l.anchor.x + t * (l.end'.x - l.anchor.x), l.anchor.y + t * (l.end'.y - l.anchor.y)⟩,
        ⟨t, h0, h1, rfl, rfl⟩, ?_⟩
      ext
      · rw [hx]; simp only [Affine.apply_x]; ring
      · rw [hy]; simp only [Affine.apply_y]; ring
    · rintro ⟨p, ⟨t, h0, h1, hx, hy⟩, rfl⟩
      refine ⟨t, h0, h1, ?_, ?_⟩
      · simp only [Affine.apply_x, hx, hy]; ring
      · simp only [Affine.apply_y, hx, hy]; ring
  · have hc' := hc
    push Not at hc
    rw [(C40_new eps h0 h1 _ _).2 hc]
    refine ⟨by simp, ?_⟩
    simp only [reduceCtorEq, exists_false, false_iff]; exact hc'

/-- **C42** (in place) after `shape *= T` returns, the object holds a line (ray, segment) whose points are exactly the
images of the points it had; when it raises, the object still has the points it had. -/
theorem C42_in_place (eps : ℝ) (h0 : 0 < eps) (h1 : eps < 1) (T : Affine ℝ) :
    (∀ l : Line ℝ, ((l.imul eps T).1 = .ok () ∧ ∀ q, (l.imul eps T).2.Pt q ↔ ∃ p, l.Pt p ∧ q = T.apply p) ∨
      ((l.imul eps T).1 = .error .valueError ∧ ∀ q, (l.imul eps T).2.Pt q ↔ l.Pt q)) ∧
    (∀ l : Ray ℝ, ((l.imul eps T).1 = .ok () ∧ ∀ q, (l.imul eps T).2.Pt q ↔ ∃ p, l.Pt p ∧ q = T.apply p) ∨
      ((l.imul eps T).1 = .error .valueError ∧ ∀ q, (l.imul eps T).2.Pt q ↔ l.Pt q)) ∧
    (∀ l : LineSegment ℝ, ((l.imul eps T).1 = .ok () ∧ ∀ q, (l.imul eps T).2.Pt q ↔ ∃ p, l.Pt p ∧ q = T.apply p) ∨
      ((l.imul eps T).1 = .error .valueError ∧ ∀ q, (l.imul eps T).2.Pt q ↔ l.Pt q)) := by
  refine ⟨fun l => ?_, fun l => ?_, fun l => ?_⟩
  · have h := C19_line eps h0 h1 l T
    cases ht : l.transformed eps T with
    | ok l' => rw [h.1 l' ht]; exact Or.inl ⟨rfl, ((C42_line eps h0 h1 l T).1 l' ht).2⟩
    | error e => rw [(h.2 e ht).2]; exact Or.inr ⟨rfl, fun q => Iff.rfl⟩
  · have h := C19_ray eps h0 h1 l T
    cases ht : l.transformed eps T with
    | ok l' => rw [h.1 l' ht]; exact Or.inl ⟨rfl, ((C42_ray eps h0 h1 l T).1 l' ht).2.2⟩
    | error e => rw [(h.2 e ht).2]; exact Or.inr ⟨rfl, fun q => Iff.rfl⟩
  · have h := C19_segment eps h0 h1 l T
    cases ht : l.transformed eps T with
    | ok l' => rw [h.1 l' ht]; exact Or.inl ⟨rfl, ((C42_segment eps h0 h1 l T).1 l' ht).2.2.2⟩
    | error e => rw [(h.2 e ht).2]; exact Or.inr ⟨rfl, fun q => Iff.rfl⟩

/-- A rotation by a quarter turn satisfies the hypothesis of the three theorems. -/
example : ∃ l', (⟨⟨⟨3/5, 4/5⟩, ⟨4/5, -(3/5)⟩⟩, 2⟩ : Line ℝ).transformed (1/100000) ⟨0, 1, 5, -1, 0, 7⟩ = .ok l' := by
  rw [(C42_line _ (by norm_num) (by norm_num) _ _).2]
  rw [lt_length_iff (by norm_num)]
  norm_num [Vec2.length2]

/-! ### C11 -/

section C11
variable {K : Type} [Field K] [LinearOrder K] [IsStrictOrderedRing K]

/-- **C11** (Affine). -/
theorem C11_affine (eps : K) (S T : Affine K) :
    (0 < eps → S.almostEquals eps S = true) ∧ S.almostEquals 0 T = false ∧
    S.almostEquals eps T = T.almostEquals eps S ∧ (0 < eps → S = T → S.almostEquals eps T = true) ∧
    (S.almostEquals eps T = true ↔ |S.a - T.a| < eps ∧ |S.b - T.b| < eps ∧ |S.c - T.c| < eps ∧
      |S.d - T.d| < eps ∧ |S.e - T.e| < eps ∧ |S.f - T.f| < eps) := by
  have key : ∀ eps, ∀ S T : Affine K, (S.almostEquals eps T = true ↔ |S.a - T.a| < eps ∧ |S.b - T.b| < eps ∧
      |S.c - T.c| < eps ∧ |S.d - T.d| < eps ∧ |S.e - T.e| < eps ∧ |S.f - T.f| < eps) := by
    intro eps S T
    simp only [Affine.almostEquals, pyabs_eq_abs, ge_iff_le]
    by_cases h1 : eps ≤ |S.a - T.a|
    · rw [if_pos h1]; exact ⟨fun h => by simp at h, fun h => absurd h1 (not_le.mpr h.1)⟩
    rw [if_neg h1]
    by_cases h2 : eps ≤ |S.b - T.b|
    · rw [if_pos h2]; exact ⟨fun h => by simp at h, fun h => absurd h2 (not_le.mpr h.2.1)⟩
    rw [if_neg h2]
    by_cases h3 : eps ≤ |S.c - T.c|
    · rw [if_pos h3]; exact ⟨fun h => by simp at h, fun h => absurd h3 (not_le.mpr h.2.2.1)⟩
    rw [if_neg h3]
    by_cases h4 : eps ≤ |S.d - T.d|
    · rw [if_pos h4]; exact ⟨fun h => by simp at h, fun h => absurd h4 (not_le.mpr h.2.2.2.1)⟩
    rw [if_neg h4]
    by_cases h5 : eps ≤ |S.e - T.e|
    · rw [if_pos h5]; exact ⟨fun h => by simp at h, fun h => absurd h5 (not_le.mpr h.2.2.2.2.1)⟩
    rw [if_neg h5]
    by_cases h6 : eps ≤ |S.f - T.f|
    · rw [if_pos h6]; exact ⟨fun h => by simp at h, fun h => absurd h6 (not_le.mpr h.2.2.2.2.2)⟩
    rw [if_neg h6]
    exact ⟨fun _ => ⟨not_le.mp h1, not_le.mp h2, not_le.mp h3, not_le.mp h4, not_le.mp h5, not_le.mp h6⟩, fun _ => rfl⟩
  have refl : 0 < eps → S.almostEquals eps S = true := by
    intro h; rw [key]; simp [h]
  refine ⟨refl, ?_, ?_, ?_, key eps S T⟩
  · rw [← Bool.not_eq_true, key]
    rintro ⟨h, -⟩
    exact absurd h (not_lt.mpr (abs_nonneg _))
  · rw [Bool.eq_iff_iff, key, key]
    simp only [abs_sub_comm]
  · rintro h rfl; exact refl h

/-- **C11** (BoundingBox). -/
theorem C11_box (eps : K) (a b : Box K) :
    (eps ≠ 0 → a.almostEquals eps a = true) ∧ a.almostEquals 0 b = false ∧
    a.almostEquals eps b = b.almostEquals eps a ∧ (eps ≠ 0 → a = b → a.almostEquals eps b = true) := by
  have refl : eps ≠ 0 → a.almostEquals eps a = true := by
    intro h; simp only [Box.almostEquals, (C11_vec2 eps _ a.min).1 h, (C11_vec2 eps _ a.max).1 h, Bool.and_self]
  refine ⟨refl, ?_, ?_, ?_⟩
  · simp only [Box.almostEquals, (C11_vec2 (0:K) a.max b.max).2.1, Bool.and_false]
  · simp only [Box.almostEquals, (C11_vec2 eps a.min b.min).2.2.1, (C11_vec2 eps a.max b.max).2.2.1]
  · rintro h rfl; exact refl h
end C11

/-- **C11** (Line). -/
theorem C11_line (eps : ℝ) (a b : Line ℝ) :
    (0 < eps → a.almostEquals eps a = true) ∧ a.almostEquals 0 b = false ∧
    a.almostEquals eps b = b.almostEquals eps a ∧ (0 < eps → (a == b) = true → a.almostEquals eps b = true) := by
  have key : 0 < eps → ∀ a b : Line ℝ, (a == b) = true → a.almostEquals eps b = true := by
    intro h a b hab
    have hab : (a.offset == b.offset && a.direction == b.direction) = true := hab
    rw [Bool.and_eq_true] at hab
    have h1 := eq_of_beq hab.1; have h2 := eq_of_beq hab.2
    simp only [Line.almostEquals, h1, h2, sub_self, pyabs_eq_abs, abs_zero, h, decide_true,
      (C11_vec2 eps b.direction b.direction).1 h.ne', Bool.and_self]
  refine ⟨fun h => key h a a ?_, ?_, ?_, fun h => key h a b⟩
  · change (a.offset == a.offset && a.direction == a.direction) = true
    rw [beq_self_eq_true, beq_self_eq_true]; rfl
  · simp only [Line.almostEquals, (C11_vec2 (0:ℝ) _ b.direction).2.1, Bool.and_false]
  · simp only [Line.almostEquals, pyabs_eq_abs, abs_sub_comm a.offset b.offset,
      (C11_vec2 eps a.direction b.direction).2.2.1]

/-- **C11** (Ray). -/
theorem C11_ray (eps : ℝ) (a b : Ray ℝ) :
    (eps ≠ 0 → a.almostEquals eps a = true) ∧ a.almostEquals 0 b = false ∧
    a.almostEquals eps b = b.almostEquals eps a ∧ (eps ≠ 0 → (a == b) = true → a.almostEquals eps b = true) := by
  have key : eps ≠ 0 → ∀ a b : Ray ℝ, (a == b) = true → a.almostEquals eps b = true := by
    intro h a b hab
    have hab : (a.anchor == b.anchor && a.direction == b.direction) = true := hab
    rw [Bool.and_eq_true] at hab
    have h1 := eq_of_beq hab.1; have h2 := eq_of_beq hab.2
    simp only [Ray.almostEquals, h1, h2, (C11_vec2 eps b.anchor b.anchor).1 h,
      (C11_vec2 eps b.direction b.direction).1 h, Bool.and_self]
  refine ⟨fun h => key h a a ?_, ?_, ?_, fun h => key h a b⟩
  · change (a.anchor == a.anchor && a.direction == a.direction) = true
    rw [beq_self_eq_true, beq_self_eq_true]; rfl
  · simp only [Ray.almostEquals, (C11_vec2 (0:ℝ) _ b.direction).2.1, Bool.and_false]
  · simp only [Ray.almostEquals, (C11_vec2 eps a.direction b.direction).2.2.1, (C11_vec2 eps a.anchor b.anchor).2.2.1]

/-- **C11** (LineSegment). -/
theorem C11_segment (eps : ℝ) (a b : LineSegment ℝ) :
    (eps ≠ 0 → a.almostEquals eps a = true) ∧ a.almostEquals 0 b = false ∧
    a.almostEquals eps b = b.almostEquals eps a ∧ (eps ≠ 0 → (a == b) = true → a.almostEquals eps b = true) := by
  have key : eps ≠ 0 → ∀ a b : LineSegment ℝ, (a == b) = true → a.almostEquals eps b = true := by
    intro h a b hab
    have hab : (a.anchor == b.anchor && a.vector == b.vector) = true := hab
    rw [Bool.and_eq_true] at hab
    have h1 := eq_of_beq hab.1; have h2 := eq_of_beq hab.2
    simp only [LineSegment.almostEquals, h1, h2, (C11_vec2 eps b.anchor b.anchor).1 h,
      (C11_vec2 eps b.vector b.vector).1 h, Bool.and_self]
  refine ⟨fun h => key h a a ?_, ?_, ?_, fun h => key h a b⟩
  · change (a.anchor == a.anchor && a.vector == a.vector) = true
    rw [beq_self_eq_true, beq_self_eq_true]; rfl
  · simp only [LineSegment.almostEquals, (C11_vec2 (0:ℝ) _ b.vector).2.1, Bool.and_false]
  · simp only [LineSegment.almostEquals, (C11_vec2 eps a.vector b.vector).2.2.1, (C11_vec2 eps a.anchor b.anchor).2.2.1]

end Planar
