import Verif.Model.BoxPoly
import Verif.Model.Line
import Verif.Spec.Tolerance
import Verif.Spec.NanRat
import Verif.Props.NoRaiseFloat
/- C92: which exceptions leave vectors, transforms, boxes, lines, rays and segments, whatever the arithmetic. -/
set_option linter.unusedSectionVars false
namespace Planar
open Spec

section Free
variable {K : Type} [Add K] [Sub K] [Mul K] [Div K] [Neg K] [Zero K] [One K] [BEq K] [LT K] [LE K]
  [DecidableLT K] [DecidableLE K]

theorem pydiv_free {a b : K} (h : ¬ (b == 0) = true) : pydiv a b = .ok (a / b) := by
  simp only [pydiv, h, Bool.false_eq_true, if_false]

theorem pydiv_fails {a b : K} {e : PyErr} (h : pydiv a b = .error e) : e = .zeroDivisionError ∧ (b == 0) = true := by
  unfold pydiv at h
  split at h
  · rename_i hb
    simp only [Except.error.injEq] at h
    exact ⟨h.symm, hb⟩
  · simp at h

/-! ### Vectors -/

/-- **C92** `v.normalized()` and `v.scaled_to(l)` never raise. -/
theorem C92_normalized [PyMath K] {eps : K} (t : Tolerance eps) (v : Vec2 K) (l : K) :
    (∃ r, v.normalized eps = .ok r) ∧ ∃ r, v.scaledTo eps l = .ok r := by
  unfold Vec2.normalized Vec2.scaledTo
  by_cases h : v.length > eps
  · have hz : ¬ (v.length == 0) = true := fun hz => t.above _ hz h
    simp only [h, if_true, pydiv_free hz, bind, Except.bind, pure, Except.pure]
    exact ⟨⟨_, rfl⟩, ⟨_, rfl⟩⟩
  · simp only [h, if_false]
    exact ⟨⟨_, rfl⟩, ⟨_, rfl⟩⟩

/-- **C92** `v.project(o)` and `v.reflect(o)` never raise. -/
theorem C92_project {eps : K} (t : Tolerance eps) (v o : Vec2 K) :
    (∃ r, v.project eps o = .ok r) ∧ ∃ r, v.reflect eps o = .ok r := by
  unfold Vec2.project Vec2.reflect
  constructor
  · by_cases h : v.length2 > eps2 eps
    · have hz : ¬ (v.length2 == 0) = true := fun hz => t.above2 _ hz h
      simp only [h, if_true, pydiv_free hz, bind, Except.bind, pure, Except.pure]
      exact ⟨_, rfl⟩
    · simp only [h, if_false]
      exact ⟨_, rfl⟩
  · by_cases h : o.x * o.x + o.y * o.y > eps2 eps
    · have hz : ¬ (o.x * o.x + o.y * o.y == 0) = true := fun hz => t.above2 _ hz h
      simp only [h, if_true, pydiv_free hz, bind, Except.bind, pure, Except.pure]
      exact ⟨_, rfl⟩
    · simp only [h, if_false]
      exact ⟨_, rfl⟩

/-- **C92** `v.clamped(min, max)` raises ValueError exactly when both bounds are given and the lower is above the upper;
otherwise OverflowError exactly when the square of a bound that has to be compared is too large (the upper bound is not looked at
if the vector is shorter than the lower one); and nothing else. -/
theorem C92_clamped [PyMath K] {eps : K} (t : Tolerance eps) (v : Vec2 K) (lo hi : Option K) (e : PyErr) :
    v.clamped eps lo hi = .error e ↔
      (e = .valueError ∧ ∃ a b, lo = some a ∧ hi = some b ∧ b < a) ∨
      (e = .overflowError ∧ (¬ ∃ a b, lo = some a ∧ hi = some b ∧ b < a) ∧
        ((∃ a, lo = some a ∧ PyMath.sq a = none) ∨
          ∃ b, hi = some b ∧ PyMath.sq b = none ∧ ¬ ∃ a q, lo = some a ∧ PyMath.sq a = some q ∧ v.x * v.x + v.y * v.y < q)) := by
  have hs : ∀ l, ∃ r, v.scaledTo eps l = .ok r := fun l => (C92_normalized t v l).2
  have upper : ∀ m : K, (((pysq m).map fun q => decide (v.length2 > q)) >>= fun c =>
      if c then v.scaledTo eps m else .ok v) = .error e ↔ e = .overflowError ∧ PyMath.sq m = none := by
    intro m
    obtain ⟨r, hr⟩ := hs m
    cases hq : PyMath.sq m with
    | none => simp only [pysq, hq, Except.map, bind, Except.bind, Except.error.injEq, and_true]; exact eq_comm
    | some q =>
      simp only [pysq, hq, Except.map, bind, Except.bind, hr, reduceCtorEq, and_false, iff_false]
      split <;> simp
  have hl2 : v.length2 = v.x * v.x + v.y * v.y := rfl
  rw [← hl2]
  have bad : ∀ a b : K, (∃ a' b', (some a : Option K) = some a' ∧ (some b : Option K) = some b' ∧ b' < a') ↔ b < a := by
    intro a b
    constructor
    · rintro ⟨a', b', h1, h2, h⟩
      simp only [Option.some.injEq] at h1 h2
      subst h1 h2
      exact h
    · exact fun h => ⟨a, b, rfl, rfl, h⟩
  cases lo with
  | none =>
    cases hi with
    | none => simp [Vec2.clamped, bind, Except.bind]
    | some b =>
      have := upper b
      simp only [Vec2.clamped, Bool.false_eq_true, if_false, Option.getD_some] at this ⊢
      simp only [bind, Except.bind, Bool.false_eq_true, if_false] at this ⊢
      rw [this]
      simp
  | some a =>
    obtain ⟨r, hr⟩ := hs a
    cases hi with
    | none =>
      cases hq : PyMath.sq a with
      | none => simp [Vec2.clamped, pysq, hq, Except.map, bind, Except.bind, eq_comm]
      | some q =>
        by_cases hlt : v.length2 < q
        · simp [Vec2.clamped, pysq, hq, Except.map, bind, Except.bind, hlt, hr]
        · simp [Vec2.clamped, pysq, hq, Except.map, bind, Except.bind, hlt]
    | some b =>
      rw [bad]
      by_cases hb : b < a
      · simp [Vec2.clamped, hb, eq_comm]
      · cases hq : PyMath.sq a with
        | none => simp [Vec2.clamped, hb, pysq, hq, Except.map, bind, Except.bind, eq_comm]
        | some q =>
          by_cases hlt : v.length2 < q
          · simp [Vec2.clamped, hb, pysq, hq, Except.map, bind, Except.bind, hlt, hr]
          · have := upper b
            simp only [bind, Except.bind] at this
            simp only [Vec2.clamped, gt_iff_lt, hb, decide_false, Bool.false_eq_true, if_false, Option.getD_some, pysq, hq, Except.map,
              bind, Except.bind, hlt] at this ⊢
            rw [this]
            simp [hb, hq, hlt]

/-! ### Transforms -/

/-- **C92** `~T` raises exactly when `T.is_degenerate`, and then TransformNotInvertibleError. -/
theorem C92_invert {eps : K} (t : Tolerance eps) (T : Affine K) (e : PyErr) :
    T.invert eps = .error e ↔ e = .notInvertible ∧ T.isDegenerate eps = true := by
  unfold Affine.invert
  by_cases h : T.isDegenerate eps = true
  · simp only [h, if_true, Except.error.injEq, and_true]
    exact eq_comm
  · have hz : ¬ (T.determinant == 0) = true := by
      intro hz
      apply h
      simp only [Affine.isDegenerate, pyabs]
      exact decide_eq_true (t.below _ hz)
    simp [h, pydiv_free hz, bind, Except.bind, pure, Except.pure]

/-! ### Boxes -/

/-- **C92** a box of points or of shapes cannot be built exactly when there are none, and the exception is ValueError. -/
theorem C92_box_points (ps : List (Vec2 K)) (bs : List (Box K)) (e : PyErr) :
    (Box.fromPoints ps = .error e ↔ e = .valueError ∧ ps = []) ∧
    (Box.fromShapes bs = .error e ↔ e = .valueError ∧ bs = []) := by
  constructor
  · cases ps with
    | nil => simp only [Box.fromPoints, Except.error.injEq, and_true]; exact eq_comm
    | cons p ps => simp [Box.fromPoints]
  · cases bs with
    | nil => simp only [Box.fromShapes, Except.error.injEq, and_true]; exact eq_comm
    | cons p ps => simp [Box.fromShapes]

/-- **C92** `from_center`, `inflate` (by a number or a vector), `to_polygon` and the product with any transform never
raise. -/
theorem C92_box_total (eps : K) (b : Box K) (c : Vec2 K) (w h k : K) (T : Affine K) :
    (∃ r, Box.fromCenter c w h = .ok r) ∧ (∃ r, b.inflateS k = .ok r) ∧ (∃ r, b.inflateV c = .ok r) ∧
    (∃ r, b.toPolygon = .ok r) ∧ ∃ r, b.mulT eps T = .ok r := by
  refine ⟨⟨_, rfl⟩, ⟨_, rfl⟩, ⟨_, rfl⟩, ⟨_, rfl⟩, ?_⟩
  unfold Box.mulT
  split
  · exact ⟨_, rfl⟩
  · exact ⟨_, rfl⟩

/-- **C92** fitting a box or a polygon into a box raises exactly when the width or the height of what is fitted equals zero,
and then ZeroDivisionError. -/
theorem C92_fit (b o : Box K) (e : PyErr) :
    b.fitBox o = .error e ↔
      e = .zeroDivisionError ∧ ((o.max.x - o.min.x == 0) = true ∨ (o.max.y - o.min.y == 0) = true) := by
  unfold Box.fitBox Box.width Box.height
  by_cases hx : (o.max.x - o.min.x == 0) = true
  · simp only [pydiv, hx, if_true, bind, Except.bind, Except.error.injEq, true_or, and_true]
    exact eq_comm
  · by_cases hy : (o.max.y - o.min.y == 0) = true
    · simp only [pydiv, hx, hy, if_true, Bool.false_eq_true, if_false, bind, Except.bind, Except.error.injEq, or_true, and_true]
      exact eq_comm
    · simp [pydiv_free hx, pydiv_free hy, hx, hy, bind, Except.bind, Box.fromCenter, Box.fromPoints]

/-- **C92** the same for a polygon, with the width and height of its bounding box. -/
theorem C92_fit_polygon [PyMath K] {eps : K} {order} (b : Box K) (s : Polygon K) (h : Reachable eps order s) (e : PyErr) :
    (b.fitPolygon s).1 = .error e ↔
      e = .zeroDivisionError ∧ ∃ o, s.boundingBox.1 = .ok o ∧
        ((o.max.x - o.min.x == 0) = true ∨ (o.max.y - o.min.y == 0) = true) := by
  obtain ⟨o, ho⟩ := C74_bounding_box eps order s h
  have hp : s.boundingBox = (.ok o, s.boundingBox.2) := by rw [← ho]
  unfold Box.fitPolygon
  rw [hp]
  simp only [Except.ok.injEq, exists_eq_left']
  unfold Box.fitTransform Box.width Box.height
  by_cases hx : (o.max.x - o.min.x == 0) = true
  · simp only [pydiv, hx, if_true, bind, Except.bind, Except.error.injEq, true_or, and_true]
    exact eq_comm
  · by_cases hy : (o.max.y - o.min.y == 0) = true
    · simp only [pydiv, hx, hy, if_true, Bool.false_eq_true, if_false, bind, Except.bind, Except.error.injEq, or_true, and_true]
      exact eq_comm
    · simp [pydiv_free hx, pydiv_free hy, hx, hy, bind, Except.bind, pure, Except.pure]

/-! ### Lines, rays and segments -/

variable [PyMath K]

theorem Lin.setDirection_fails {eps : K} (t : Tolerance eps) (s : Lin K) (v : Vec2 K) (e : PyErr)
    (h : (s.setDirection eps v).1 = .error e) : e = .valueError ∧ (s.setDirection eps v).2 = s := by
  obtain ⟨r, hr⟩ := (C92_normalized t v.copy 0).1
  unfold Lin.setDirection at h ⊢
  rw [hr] at h ⊢
  simp only at h ⊢
  split at h
  · simp only [Except.error.injEq] at h
    rename_i hn
    simp only [hn, if_true, and_true]
    exact h.symm
  · simp at h

theorem Lin.setNormal_fails {eps : K} (t : Tolerance eps) (s : Lin K) (v : Vec2 K) (e : PyErr)
    (h : (s.setNormal eps v).1 = .error e) : e = .valueError ∧ (s.setNormal eps v).2 = s := by
  obtain ⟨r, hr⟩ := (C92_normalized t v.copy 0).1
  unfold Lin.setNormal at h ⊢
  rw [hr] at h ⊢
  simp only at h ⊢
  split at h
  · simp only [Except.error.injEq] at h
    rename_i hn
    simp only [hn, if_true, and_true]
    exact h.symm
  · simp at h

theorem Lin.ofDirection_fails {eps : K} (t : Tolerance eps) (v : Vec2 K) (e : PyErr)
    (h : Lin.ofDirection eps v = .error e) : e = .valueError := by
  have := Lin.setDirection_fails t ⟨v, v⟩ v
  unfold Lin.ofDirection at h
  rcases hs : Lin.setDirection eps ⟨v, v⟩ v with ⟨r, l⟩
  rw [hs] at h this
  cases r with
  | error e' =>
    simp only [Except.error.injEq] at h
    subst h
    exact (this e' rfl).1
  | ok u => simp at h

theorem Lin.ofNormal_fails {eps : K} (t : Tolerance eps) (v : Vec2 K) (e : PyErr)
    (h : Lin.ofNormal eps v = .error e) : e = .valueError := by
  have := Lin.setNormal_fails t ⟨v, v⟩ v
  unfold Lin.ofNormal at h
  rcases hs : Lin.setNormal eps ⟨v, v⟩ v with ⟨r, l⟩
  rw [hs] at h this
  cases r with
  | error e' =>
    simp only [Except.error.injEq] at h
    subst h
    exact (this e' rfl).1
  | ok u => simp at h

theorem firstTwo_fails (ps : List (Vec2 K)) (e : PyErr) (h : firstTwoDistinct ps = .error e) : e = .valueError := by
  have go : ∀ (s : Vec2 K) (l : List (Vec2 K)), firstTwoDistinct.go s l = .error e → e = .valueError := by
    intro s l
    induction l with
    | nil => intro h; simp only [firstTwoDistinct.go, Except.error.injEq] at h; exact h.symm
    | cons q qs ih =>
      intro h
      unfold firstTwoDistinct.go at h
      split at h
      · exact ih h
      · simp at h
  cases ps with
  | nil => simp only [firstTwoDistinct, Except.error.injEq] at h; exact h.symm
  | cons p ps => exact go _ _ h

theorem Line.fromPoints_fails {eps : K} (t : Tolerance eps) (ps : List (Vec2 K)) (e : PyErr)
    (h : Line.fromPoints eps ps = .error e) : e = .valueError := by
  unfold Line.fromPoints at h
  cases hf : firstTwoDistinct ps with
  | error e' =>
    simp only [hf, bind, Except.bind, Except.error.injEq] at h
    exact h ▸ firstTwo_fails ps e' hf
  | ok r =>
    obtain ⟨a, b, rest⟩ := r
    cases hd : Lin.ofDirection eps (b - a) with
    | error e' =>
      simp only [hf, hd, bind, Except.bind, Except.error.injEq] at h
      exact h ▸ Lin.ofDirection_fails t _ e' hd
    | ok l =>
      simp only [hf, hd, bind, Except.bind, pure, Except.pure] at h
      split at h
      · simp at h
      · simp only [Except.error.injEq] at h; exact h.symm

theorem Ray.fromPoints_fails {eps : K} (t : Tolerance eps) (ps : List (Vec2 K)) (e : PyErr)
    (h : Ray.fromPoints eps ps = .error e) : e = .valueError := by
  unfold Ray.fromPoints at h
  cases hf : firstTwoDistinct ps with
  | error e' =>
    simp only [hf, bind, Except.bind, Except.error.injEq] at h
    exact h ▸ firstTwo_fails ps e' hf
  | ok r =>
    obtain ⟨a, b, rest⟩ := r
    cases hd : Lin.ofDirection eps (b - a) with
    | error e' =>
      simp only [hf, hd, bind, Except.bind, Except.error.injEq] at h
      exact h ▸ Lin.ofDirection_fails t _ e' hd
    | ok l =>
      simp only [hf, hd, bind, Except.bind, pure, Except.pure] at h
      split at h
      · simp at h
      · simp only [Except.error.injEq] at h; exact h.symm

theorem LineSegment.setVector_fails {eps : K} (t : Tolerance eps) (s : LineSegment K) (v : Vec2 K) (e : PyErr)
    (h : (s.setVector eps v).1 = .error e) : e = .valueError ∧ (s.setVector eps v).2 = s := by
  have h1 := fun w => Lin.setDirection_fails t s.toLin w
  unfold LineSegment.setVector at h ⊢
  simp only at h ⊢
  generalize hr : (if v.copy.length != 0 then s.toLin.setDirection eps v.copy else s.toLin.setDirection eps ⟨1, 0⟩) = r at h ⊢
  have hk : ∀ e, r.1 = .error e → e = .valueError ∧ r.2 = s.toLin := by
    intro e he
    rw [← hr] at he ⊢
    split at he
    · rename_i hc; simp only [hc, if_true]; exact h1 _ e he
    · rename_i hc; simp only [hc, Bool.false_eq_true, if_false]; exact h1 _ e he
  cases h2 : r.1 with
  | error e' =>
    rw [h2] at h
    simp only [Except.error.injEq] at h
    subst h
    obtain ⟨he, hl⟩ := hk e' h2
    exact ⟨he, by simp only [hl]⟩
  | ok u => rw [h2] at h; simp at h

theorem LineSegment.fromPoints_fails {eps : K} (t : Tolerance eps) (ps : List (Vec2 K)) (e : PyErr)
    (h : LineSegment.fromPoints eps ps = .error e) : e = .valueError := by
  cases ps with
  | nil => simp only [LineSegment.fromPoints, Except.error.injEq] at h; exact h.symm
  | cons p ps =>
    unfold LineSegment.fromPoints at h
    simp only at h
    split at h
    · rename_i e' s' hr
      simp only [Except.error.injEq] at h
      subst h
      split at hr
      · exact (LineSegment.setVector_fails t _ _ e' (by rw [hr])).1
      · simp only [Prod.mk.injEq] at hr
        exact (Lin.setDirection_fails t _ _ e' hr.1).1
    · split at h
      · simp at h
      · simp only [Except.error.injEq] at h; exact h.symm

theorem LineSegment.new_fails {eps : K} (t : Tolerance eps) (p v : Vec2 K) (e : PyErr)
    (h : LineSegment.new eps p v = .error e) : e = .valueError := by
  have := LineSegment.setVector_fails t ⟨⟨v, v⟩, p, 0⟩ v
  unfold LineSegment.new at h
  rcases hs : LineSegment.setVector eps ⟨⟨v, v⟩, p, 0⟩ v with ⟨r, l⟩
  rw [hs] at h this
  cases r with
  | error e' =>
    simp only [Except.error.injEq] at h
    subst h
    exact (this e' rfl).1
  | ok u => simp at h

theorem Line.new_fails {eps : K} (t : Tolerance eps) (p v : Vec2 K) (e : PyErr)
    (h : Line.new eps p v = .error e) : e = .valueError := by
  unfold Line.new at h
  cases hd : Lin.ofDirection eps v with
  | error e' =>
    simp only [hd, bind, Except.bind, Except.error.injEq] at h
    exact h ▸ Lin.ofDirection_fails t _ e' hd
  | ok l => simp [hd, bind, Except.bind, pure, Except.pure] at h

theorem Ray.new_fails {eps : K} (t : Tolerance eps) (p v : Vec2 K) (e : PyErr)
    (h : Ray.new eps p v = .error e) : e = .valueError := by
  unfold Ray.new at h
  cases hd : Lin.ofDirection eps v with
  | error e' =>
    simp only [hd, bind, Except.bind, Except.error.injEq] at h
    exact h ▸ Lin.ofDirection_fails t _ e' hd
  | ok l => simp [hd, bind, Except.bind, pure, Except.pure] at h

/-- **C92** every way to make a line: the only exception is ValueError. -/
theorem C92_line {eps : K} (t : Tolerance eps) (l : Line K) (ps : List (Vec2 K)) (p v : Vec2 K) (k : K) (T : Affine K)
    (e : PyErr)
    (h : Line.new eps p v = .error e ∨ Line.fromPoints eps ps = .error e ∨ Line.fromNormal eps v k = .error e ∨
      l.parallel eps p = .error e ∨ l.perpendicular eps p = .error e ∨ l.transformed eps T = .error e) :
    e = .valueError := by
  rcases h with h | h | h | h | h | h
  · exact Line.new_fails t _ _ e h
  · exact Line.fromPoints_fails t _ e h
  · unfold Line.fromNormal at h
    cases hd : Lin.ofNormal eps v with
    | error e' =>
      simp only [hd, bind, Except.bind, Except.error.injEq] at h
      exact h ▸ Lin.ofNormal_fails t _ e' hd
    | ok l => simp [hd, bind, Except.bind, pure, Except.pure] at h
  · exact Line.new_fails t _ _ e h
  · exact Line.new_fails t _ _ e h
  · exact Line.fromPoints_fails t _ e h

/-- **C92** every way to make a ray, and the line of a ray: the only exception is ValueError. -/
theorem C92_ray {eps : K} (t : Tolerance eps) (l : Ray K) (ps : List (Vec2 K)) (p v : Vec2 K) (T : Affine K) (e : PyErr)
    (h : Ray.new eps p v = .error e ∨ Ray.fromPoints eps ps = .error e ∨ l.transformed eps T = .error e ∨
      l.line eps = .error e) :
    e = .valueError := by
  rcases h with h | h | h | h
  · exact Ray.new_fails t _ _ e h
  · exact Ray.fromPoints_fails t _ e h
  · exact Ray.fromPoints_fails t _ e h
  · exact Line.new_fails t _ _ e h

/-- **C92** every way to make a segment, and the line of a segment: the only exception is ValueError. -/
theorem C92_segment {eps : K} (t : Tolerance eps) (l : LineSegment K) (ps : List (Vec2 K)) (p v : Vec2 K) (a b c : K)
    (T : Affine K) (e : PyErr)
    (h : LineSegment.new eps p v = .error e ∨ LineSegment.fromPoints eps ps = .error e ∨
      LineSegment.fromNormal eps v a b c = .error e ∨ l.transformed eps T = .error e ∨ l.line eps = .error e) :
    e = .valueError := by
  rcases h with h | h | h | h | h
  · exact LineSegment.new_fails t _ _ e h
  · exact LineSegment.fromPoints_fails t _ e h
  · unfold LineSegment.fromNormal at h
    cases hd : Lin.ofNormal eps v with
    | error e' =>
      simp only [hd, bind, Except.bind, Except.error.injEq] at h
      exact h ▸ Lin.ofNormal_fails t _ e' hd
    | ok l => simp [hd, bind, Except.bind, pure, Except.pure] at h
  · exact LineSegment.fromPoints_fails t _ e h
  · exact Line.new_fails t _ _ e h

/-- **C92** a failed assignment or in-place transform of a line raises ValueError and leaves the line as it was. -/
theorem C92_line_kept {eps : K} (t : Tolerance eps) (l : Line K) (v : Vec2 K) (T : Affine K) (e : PyErr) :
    ((l.setDirection eps v).1 = .error e → e = .valueError ∧ (l.setDirection eps v).2 = l) ∧
    ((l.setNormal eps v).1 = .error e → e = .valueError ∧ (l.setNormal eps v).2 = l) ∧
    ((l.imul eps T).1 = .error e → e = .valueError ∧ (l.imul eps T).2 = l) := by
  have hd : ∀ w e, (l.setDirection eps w).1 = .error e → e = .valueError ∧ (l.setDirection eps w).2 = l := by
    intro w e h
    obtain ⟨h1, h2⟩ := Lin.setDirection_fails t l.toLin w e h
    exact ⟨h1, by simp only [Line.setDirection, h2]⟩
  refine ⟨hd v e, ?_, ?_⟩
  · intro h
    obtain ⟨h1, h2⟩ := Lin.setNormal_fails t l.toLin v e h
    exact ⟨h1, by simp only [Line.setNormal, h2]⟩
  · intro h
    have := hd (T.apply l.points.2 - T.apply l.points.1)
    unfold Line.imul at h ⊢
    simp only at h ⊢
    rcases hs : l.setDirection eps (T.apply l.points.2 - T.apply l.points.1) with ⟨r, l'⟩
    rw [hs] at h this
    cases r with
    | error e' =>
      simp only [Except.error.injEq] at h
      subst h
      exact this e' rfl
    | ok u => simp at h

/-- **C92** the same for a ray. -/
theorem C92_ray_kept {eps : K} (t : Tolerance eps) (l : Ray K) (v : Vec2 K) (T : Affine K) (e : PyErr) :
    ((l.setDirection eps v).1 = .error e → e = .valueError ∧ (l.setDirection eps v).2 = l) ∧
    ((l.setNormal eps v).1 = .error e → e = .valueError ∧ (l.setNormal eps v).2 = l) ∧
    ((l.imul eps T).1 = .error e → e = .valueError ∧ (l.imul eps T).2 = l) := by
  have hd : ∀ w e, (l.setDirection eps w).1 = .error e → e = .valueError ∧ (l.setDirection eps w).2 = l := by
    intro w e h
    obtain ⟨h1, h2⟩ := Lin.setDirection_fails t l.toLin w e h
    exact ⟨h1, by simp only [Ray.setDirection, h2]⟩
  refine ⟨hd v e, ?_, ?_⟩
  · intro h
    obtain ⟨h1, h2⟩ := Lin.setNormal_fails t l.toLin v e h
    exact ⟨h1, by simp only [Ray.setNormal, h2]⟩
  · intro h
    have := hd (T.apply l.points.2 - T.apply l.points.1)
    unfold Ray.imul at h ⊢
    simp only at h ⊢
    rcases hs : l.setDirection eps (T.apply l.points.2 - T.apply l.points.1) with ⟨r, l'⟩
    rw [hs] at h this
    cases r with
    | error e' =>
      simp only [Except.error.injEq] at h
      subst h
      exact this e' rfl
    | ok u => simp at h

/-- **C92** the same for a segment, with its `vector` and `end` too. -/
theorem C92_segment_kept {eps : K} (t : Tolerance eps) (l : LineSegment K) (v : Vec2 K) (T : Affine K) (e : PyErr) :
    ((l.setDirection eps v).1 = .error e → e = .valueError ∧ (l.setDirection eps v).2 = l) ∧
    ((l.setNormal eps v).1 = .error e → e = .valueError ∧ (l.setNormal eps v).2 = l) ∧
    ((l.setVector eps v).1 = .error e → e = .valueError ∧ (l.setVector eps v).2 = l) ∧
    ((l.setEnd eps v).1 = .error e → e = .valueError ∧ (l.setEnd eps v).2 = l) ∧
    ((l.imul eps T).1 = .error e → e = .valueError ∧ (l.imul eps T).2 = l) := by
  refine ⟨?_, ?_, LineSegment.setVector_fails t l v e, LineSegment.setVector_fails t l _ e, ?_⟩
  · intro h
    obtain ⟨h1, h2⟩ := Lin.setDirection_fails t l.toLin v e h
    exact ⟨h1, by simp only [LineSegment.setDirection, h2]⟩
  · intro h
    obtain ⟨h1, h2⟩ := Lin.setNormal_fails t l.toLin v e h
    exact ⟨h1, by simp only [LineSegment.setNormal, h2]⟩
  · intro h
    have := LineSegment.setVector_fails t l (T.apply l.points.2 - T.apply l.points.1)
    unfold LineSegment.imul at h ⊢
    simp only at h ⊢
    rcases hs : l.setVector eps (T.apply l.points.2 - T.apply l.points.1) with ⟨r, l'⟩
    rw [hs] at h this
    cases r with
    | error e' =>
      simp only [Except.error.injEq] at h
      subst h
      exact this e' rfl
    | ok u => simp at h

/-- **C92** projecting a point on a line, ray or segment and `repr` of a line never raise. -/
theorem C92_line_project {eps : K} (t : Tolerance eps) (l : Line K) (r : Ray K) (s : LineSegment K) (p : Vec2 K) :
    (∃ q, l.project eps p = .ok q) ∧ (∃ q, r.project eps p = .ok q) ∧ (∃ q, s.project eps p = .ok q) ∧
    ∃ q, l.reprArgs eps = .ok q := by
  have hl : ∀ p, ∃ q, l.project eps p = .ok q := by
    intro p
    obtain ⟨q, hq⟩ := (C92_project t l.direction p).1
    exact ⟨_, by simp only [Line.project, hq, bind, Except.bind, pure, Except.pure]; rfl⟩
  refine ⟨hl p, ?_, ?_, ?_⟩
  · obtain ⟨q, hq⟩ := (C92_project t r.direction (p.copy - r.anchor)).1
    simp only [Ray.project, hq, bind, Except.bind, pure, Except.pure]
    split <;> exact ⟨_, rfl⟩
  · obtain ⟨q, hq⟩ := (C92_project t s.direction (p.copy - s.anchor)).1
    simp only [LineSegment.project, hq, bind, Except.bind, pure, Except.pure]
    split
    · exact ⟨_, rfl⟩
    · split <;> exact ⟨_, rfl⟩
  · obtain ⟨q, hq⟩ := hl ⟨0, 0⟩
    exact ⟨_, by simp only [Line.reprArgs, hq, bind, Except.bind, pure, Except.pure]; rfl⟩

end Free

/-! ### Which numbers can serve as tolerance -/

/-- **C92** every positive number is a tolerance in exact arithmetic, in double precision and in any other rounded arithmetic. -/
theorem C92_positive {K : Type} [LinearOrder K] [Add K] [Sub K] [Mul K] [Div K] [Neg K] [Zero K] [One K]
    [RoundedArith K] (eps : K) (h : 0 < eps) : Tolerance eps where
  above x hx := by
    have : x = 0 := by simpa using hx
    subst this
    exact not_lt.mpr h.le
  above2 x hx := by
    have : x = 0 := by simpa using hx
    subst this
    exact not_lt.mpr (f_mul_self_nonneg _)
  below x hx := by
    have : x = 0 := by simpa using hx
    subst this
    simpa using h

/-- **C92** and with NaN among the numbers. -/
theorem C92_positive_nan (q : ℚ) (h : 0 < q) : Tolerance (NanRat.fin q) := by
  have key : ∀ x : NanRat, (x == 0) = true → x = .fin 0 := by
    intro x hx
    cases x with
    | nan => exact absurd hx (by simp [BEq.beq, NanRat.cmp])
    | fin y =>
      have : y = 0 := by
        have h2 : decide (y = 0) = true := hx
        simpa using h2
      rw [this]
  have hlt : ∀ a b : ℚ, (NanRat.fin a < NanRat.fin b) ↔ a < b := by
    intro a b
    show decide (a < b) = true ↔ _
    simp
  refine ⟨?_, ?_, ?_⟩
  · intro x hx
    rw [key x hx, hlt]
    exact not_lt.mpr h.le
  · intro x hx
    rw [key x hx]
    show ¬ (NanRat.fin (q * q) < NanRat.fin 0)
    rw [hlt]
    exact not_lt.mpr (mul_self_nonneg q)
  · intro x hx
    rw [key x hx]
    have h0 : ¬ (NanRat.fin 0 < (0 : NanRat)) := by
      show ¬ (NanRat.fin 0 < NanRat.fin 0)
      rw [hlt]; exact lt_irrefl _
    rw [if_neg h0, hlt]
    exact h

/-- The default tolerance is one, also for doubles. -/
example : Tolerance (1 / 100000 : ℚ) ∧ Tolerance (dbl (1 / 100000)) ∧ Tolerance (NanRat.fin (1 / 100000)) :=
  ⟨C92_positive _ (by norm_num), C92_positive _ (by decide +kernel), C92_positive_nan _ (by norm_num)⟩

/-- A degenerate transform, a transform with a NaN (not degenerate, so no exception) and a proper one. -/
example :
    err ((⟨1, 2, 0, 2, 4, 0⟩ : Affine ℚ).invert (1 / 100000)) = some .notInvertible ∧
    err ((⟨.nan, 1, 0, 1, 1, 0⟩ : Affine NanRat).invert (.fin (1 / 100000))) = none ∧
    err ((⟨1, 2, 0, 2, 5, 0⟩ : Affine ℚ).invert (1 / 100000)) = none := by
  refine ⟨by decide +kernel, by decide +kernel, by decide +kernel⟩

/-- Fitting a flat box. -/
example :
    err ((⟨⟨0, 0⟩, ⟨2, 2⟩⟩ : Box ℚ).fitBox ⟨⟨1, 1⟩, ⟨3, 1⟩⟩) = some .zeroDivisionError ∧
    err ((⟨⟨0, 0⟩, ⟨2, 2⟩⟩ : Box ℚ).fitBox ⟨⟨1, 1⟩, ⟨3, 4⟩⟩) = none ∧
    err (Box.fromPoints ([] : List (Vec2 ℚ))) = some .valueError := by
  refine ⟨by decide +kernel, by decide +kernel, by decide +kernel⟩

/-- A null direction, a null transform of a line. -/
example : Line.new (1 / 100000 : ℝ) ⟨1, 2⟩ ⟨0, 0⟩ = .error .valueError ∧
    ¬ ∃ l, LineSegment.fromPoints (1 / 100000 : ℝ) [] = .ok l := by
  constructor
  · have h0 : (⟨0, 0⟩ : Vec2 ℝ).copy.normalized (1 / 100000) = .ok ⟨0, 0⟩ := by
      have hL : ¬ ((⟨0, 0⟩ : Vec2 ℝ).copy.length > 1 / 100000) := by
        have : (⟨0, 0⟩ : Vec2 ℝ).copy.length = 0 := by
          show Real.sqrt _ = 0
          rw [Real.sqrt_eq_zero']
          simp [Vec2.copy, Vec2.mk', Vec2.length2]
        rw [this]; norm_num
      simp only [Vec2.normalized, hL, if_false]
      rfl
    have hn : (⟨0, 0⟩ : Vec2 ℝ).isNull (1 / 100000) = true := by
      simp [Vec2.isNull, Vec2.length2, eps2]
    simp only [Line.new, Lin.ofDirection, Lin.setDirection, h0, hn, bind, Except.bind, if_true]
  · simp [LineSegment.fromPoints]

/-- **C92** the assumption is needed: with `set_epsilon(0)`, `~T` of a singular transform raises ZeroDivisionError in place
of TransformNotInvertibleError, and with a negative tolerance the null vector cannot be normalized. -/
theorem C92_needs_tolerance :
    (∀ T : Affine ℝ, T.determinant = 0 → T.invert 0 = .error .zeroDivisionError) ∧
    ∀ eps : ℝ, eps < 0 → (⟨0, 0⟩ : Vec2 ℝ).normalized eps = .error .zeroDivisionError := by
  constructor
  · intro T hT
    simp [Affine.invert, Affine.isDegenerate, hT, pyabs, pydiv, bind, Except.bind]
  · intro eps he
    have h0 : (⟨0, 0⟩ : Vec2 ℝ).length = 0 := by
      show Real.sqrt _ = 0
      rw [Real.sqrt_eq_zero']
      simp [Vec2.length2]
    simp [Vec2.normalized, h0, he, pydiv, bind, Except.bind]

end Planar
