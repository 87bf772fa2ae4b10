import Verif.Model.Epsilon
import Verif.Props.FloatVec
/- C93: EPSILON and EPSILON2. -/
namespace Planar
open Spec
variable {K : Type} [PyMath K]

/-- **C93** whatever was called before and whatever was raised then: after a `set_epsilon(e)` that does not raise, EPSILON is `e` and
EPSILON2 its square. The only exception is OverflowError, exactly when the square is too large. (Partial: a call that raises
leaves them inconsistent, `C93_violated`.) -/
theorem C93_square_partial (g : EpsGlobals K) (es : List K) (e : K) :
    ((g.run (es ++ [e])).eps = e) ∧
    (∀ q, PyMath.sq e = some q → ((g.run es).set e).1 = .ok () ∧ (g.run (es ++ [e])).eps2 = q) ∧
    (∀ x, ((g.run es).set e).1 = .error x ↔ x = .overflowError ∧ PyMath.sq e = none) := by
  have hr : g.run (es ++ [e]) = ((g.run es).set e).2 := by simp only [EpsGlobals.run, List.foldl_append, List.foldl_cons, List.foldl_nil]
  rw [hr]
  unfold EpsGlobals.set pysq
  cases h : PyMath.sq e with
  | none =>
    refine ⟨rfl, fun q hq => (by cases hq), fun x => ?_⟩
    simp only [Except.error.injEq, and_true]
    exact eq_comm
  | some q =>
    refine ⟨rfl, fun q' hq => ?_, fun x => by simp⟩
    cases hq
    exact ⟨rfl, rfl⟩

/-- **C93** in exact arithmetic no call raises, and EPSILON2 is the square of EPSILON after every one. -/
theorem C93_real (g : EpsGlobals ℝ) (es : List ℝ) (h : es ≠ []) :
    es.getLast h = (g.run es).eps ∧ (g.run es).eps2 = (g.run es).eps * (g.run es).eps := by
  obtain ⟨l, e, rfl⟩ := List.eq_nil_or_concat' es |>.resolve_left h
  obtain ⟨h1, h2, -⟩ := C93_square_partial g l e
  rw [h1, (h2 (e * e) rfl).2]
  simp

/-- **C93** violated: `set_epsilon` with a finite number of `2 ^ 512` or more raises OverflowError after it has changed EPSILON,
and EPSILON2 keeps the square of an earlier value. -/
theorem C93_violated [PyMath Double] [SqOk] (g : EpsGlobals Double) (e : Double) (he : e.Finite) (h : 2 ^ 512 ≤ e.real) :
    (g.set e).1 = .error .overflowError ∧ (g.set e).2.eps = e ∧ (g.set e).2.eps2 = g.eps2 := by
  have := SqOk.overflow e he (h.trans (le_abs_self _))
  simp only [EpsGlobals.set, pysq, this, and_self]

/-- There are such numbers. -/
example : ∃ e : Double, e.Finite ∧ 2 ^ 512 ≤ e.real := ⟨_, dbl_600⟩

end Planar
