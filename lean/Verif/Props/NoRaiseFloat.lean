import Verif.Props.NoRaise
import Verif.Props.FloatGrid
import Verif.Spec.NanRat
/- C74: the exceptions that do leave the code. -/
set_option linter.unusedSectionVars false
namespace Planar
open Polygon Spec

/-! ### The hull -/

section Free
variable {K : Type} [Add K] [Sub K] [Mul K] [Div K] [Neg K] [Zero K] [One K] [BEq K] [LT K] [LE K]
  [DecidableLT K] [DecidableLE K]

theorem partition_error (n : Nat) (ps : List (Vec2 K)) (hn : ps.length = n) (p0 p1 : Vec2 K) (e : PyErr)
    (h : Hull.partitionPoints ps p0 p1 = .error e) : e = .nameError := by
  induction n using Nat.strong_induction_on generalizing ps p0 p1 e with
  | _ n ih =>
    unfold Hull.partitionPoints at h
    split at h
    · simp only [Except.error.injEq] at h; exact h.symm
    · rename_i q hq
      simp only [bind, Except.bind, pure, Except.pure] at h
      have i1 : ∀ e, (Hull.splitPoints ps q.copy p0 p1).1.length ≤
          (ps.length - (Hull.splitPoints ps q.copy p0 p1).1.length - (Hull.splitPoints ps q.copy p0 p1).2.length) * 4 ∧
          1 < (Hull.splitPoints ps q.copy p0 p1).1.length →
          Hull.partitionPoints (Hull.splitPoints ps q.copy p0 p1).1 p0 q.copy = .error e → e = .nameError :=
        fun e hl he => ih (Hull.splitPoints ps q.copy p0 p1).1.length (by omega) _ rfl _ _ e he
      have i2 : ∀ e, (Hull.splitPoints ps q.copy p0 p1).2.length ≤
          (ps.length - (Hull.splitPoints ps q.copy p0 p1).1.length - (Hull.splitPoints ps q.copy p0 p1).2.length) * 4 ∧
          1 < (Hull.splitPoints ps q.copy p0 p1).2.length →
          Hull.partitionPoints (Hull.splitPoints ps q.copy p0 p1).2 q.copy p1 = .error e → e = .nameError :=
        fun e hl he => ih (Hull.splitPoints ps q.copy p0 p1).2.length (by omega) _ rfl _ _ e he
      generalize hP1 : Hull.partitionPoints (Hull.splitPoints ps q.copy p0 p1).1 p0 q.copy = P1 at *
      generalize hP2 : Hull.partitionPoints (Hull.splitPoints ps q.copy p0 p1).2 q.copy p1 = P2 at *
      split_ifs at h with a1 a2 a3 a4 a5 a6 a7 a8
      all_goals cases P1 <;> cases P2 <;> simp only [Except.error.injEq, reduceCtorEq] at h
      all_goals subst h
      all_goals first
        | exact i1 _ (by assumption) rfl
        | exact i2 _ (by assumption) rfl

/-- **C74** whatever the arithmetic, the exceptions of `Polygon.convex_hull(points)`: IndexError exactly for no points,
ValueError (the hull has fewer than three vertices) and UnboundLocalError (a variable of the code was never assigned).
(Partial: the last one should not happen, see `C74_hull_violated`.) -/
theorem C74_hull_partial (order) (ps : List (Vec2 K)) (e : PyErr) (h : Hull.convexHull order ps = .error e) :
    (e = .indexError ↔ ps = []) ∧ (e = .indexError ∨ e = .valueError ∨ e = .nameError) := by
  unfold Hull.convexHull at h
  cases ps with
  | nil =>
    simp only [Hull.quickHull, bind, Except.bind, Except.error.injEq] at h
    simp [← h]
  | cons p ps =>
    have key : e = .valueError ∨ e = .nameError := by
      cases hq : Hull.quickHull order (p :: ps) with
      | ok vs =>
        rw [hq] at h
        simp only [bind, Except.bind] at h
        unfold Polygon.new at h
        simp only at h
        split at h
        · simp only [Except.error.injEq] at h; exact Or.inl h.symm
        · simp at h
      | error e' =>
        rw [hq] at h
        simp only [bind, Except.bind, Except.error.injEq] at h
        subst h
        right
        unfold Hull.quickHull at hq
        simp only [bind, Except.bind, pure, Except.pure] at hq
        split_ifs at hq
        all_goals (repeat' split at hq)
        all_goals simp only [Except.error.injEq, reduceCtorEq] at hq
        all_goals (subst hq; rename_i h1; exact partition_error _ _ rfl _ _ _ h1)
    rcases key with rfl | rfl <;> simp

end Free

/-- The exception raised, if any. -/
def err {α : Type} : Py α → Option PyErr
  | .ok _ => none
  | .error e => some e

/-- Four points with exact integer coordinates below 2^29, three of them nearly on a line. -/
def nearLine : List (Vec2 Double) :=
  [dvec 0 0, dvec 397721575 386100794, dvec 269313747 261444835, dvec 0 400000000]

/-- **C74** violated: in IEEE double arithmetic the convex hull of four points raises UnboundLocalError: the first test
puts the third point below the line (rounded to 0), the second finds it 8 units above the same line, further than the
initial -1 of the search for the furthest point allows. In exact arithmetic the hull exists, and the exact hull of these
points is a triangle. -/
theorem C74_hull_violated :
    Hull.convexHull id nearLine = .error .nameError ∧
    (∃ s, Hull.convexHull id (nearLine.map Vec2.exact) = .ok s) := by
  have back : ∀ (r : Py (Polygon Double)), err r = some .nameError → r = .error .nameError := by
    intro r h
    cases r with
    | ok c => simp [err] at h
    | error e => simp only [err, Option.some.injEq] at h; rw [h]
  have back' : ∀ (r : Py (Polygon ℚ)), err r = none → ∃ s, r = .ok s := by
    intro r h
    cases r with
    | ok c => exact ⟨c, rfl⟩
    | error e => simp [err] at h
  exact ⟨back _ (by decide +kernel), back' _ (by decide +kernel)⟩

/-! ### The centroid -/

/-- A self-crossing pentagon. -/
def crossed : Polygon Double := .fromPoints [dvec 0 0, dvec 4 4, dvec 4 0, dvec 0 4, dvec (-4) 2]

/-- It is one of the polygons of `C74_tangents`, `C74_bounding_box`, `C74_centroid` and `C74_contains_plain`. -/
example [PyMath Double] (eps : Double) (order) : Reachable eps order crossed ∧ crossed.yPolylines = none :=
  ⟨.points _ (by simp), rfl⟩

/-- **C74** violated: after its centroid was read (None: it crosses itself), `contains_point` of a pentagon raises
TypeError; before, it answers. -/
theorem C74_centroid_violated :
    err (crossed.containsPoint (dbl (1 / 100000)) (.vec (dvec 3 1))).1 = none ∧
    err ((PolyOp.centroid.run (dbl (1 / 100000)) crossed).containsPoint (dbl (1 / 100000)) (.vec (dvec 3 1))).1 =
      some .typeError := ⟨by decide +kernel, by decide +kernel⟩

/-! ### NaN -/

/-- The hypothesis of `C74_contains_partial` for numbers with a NaN. -/
theorem nanRat_ordered : OrderedOn NanRat.isNum NanRat.place := by
  constructor
  · intro a b ha hb
    cases a <;> cases b <;> simp_all [NanRat.isNum, NanRat.place, LT.lt, NanRat.cmp]
  · intro a b ha hb
    cases a <;> cases b <;> simp_all [NanRat.isNum, NanRat.place, BEq.beq, NanRat.cmp]

/-- The square of side one with its first vertex replaced by NaN. -/
def nanSquare : List (Vec2 NanRat) :=
  [⟨.nan, .nan⟩, ⟨.fin 0, .fin 0⟩, ⟨.fin 0, .fin 1⟩, ⟨.fin 1, .fin 1⟩]

/-- **C74** violated: with a NaN coordinate `contains_point` of a polygon declared convex raises IndexError. -/
theorem C74_nan_violated : ∃ s, Polygon.new nanSquare (some true) none = .ok s ∧
    err (s.containsPoint (.fin (1 / 100000)) (.vec ⟨.fin (1 / 2), .fin (1 / 2)⟩)).1 = some .indexError := by
  refine ⟨_, rfl, by decide +kernel⟩

/-- The other hypotheses of `C74_contains_partial`: the same square with all of its vertices is reachable, and its stored
polylines are read. -/
example [PyMath NanRat] (order) : ∃ s : Polygon NanRat, Reachable (.fin (1 / 100000)) order s ∧
    (∀ v ∈ s.verts, NanRat.isNum v.y) ∧ s.yPolylines.isSome = true ∧
    err (s.containsPoint (.fin (1 / 100000)) (.vec ⟨.fin (1 / 2), .fin (1 / 2)⟩)).1 = none := by
  refine ⟨_, .new [⟨.fin 1, .fin 0⟩, ⟨.fin 0, .fin 0⟩, ⟨.fin 0, .fin 1⟩, ⟨.fin 1, .fin 1⟩] (some true) none _ rfl, ?_, rfl,
    by decide +kernel⟩
  intro v hv
  change v ∈ [(⟨.fin (1 * 1), .fin (0 * 1)⟩ : Vec2 NanRat), ⟨.fin (0 * 1), .fin (0 * 1)⟩, ⟨.fin (0 * 1), .fin (1 * 1)⟩,
    ⟨.fin (1 * 1), .fin (1 * 1)⟩] at hv
  simp only [List.mem_cons, List.not_mem_nil, or_false] at hv
  rcases hv with rfl | rfl | rfl | rfl <;> trivial

end Planar
