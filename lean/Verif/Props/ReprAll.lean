import Verif.Props.Repr
import Verif.Props.NoRaise
/- C60 for every polygon object there is. -/
set_option linter.unusedSectionVars false
namespace Planar
open Polygon Spec

section Free
variable {K : Type} [Add K] [Sub K] [Mul K] [Div K] [Neg K] [Zero K] [One K] [BEq K] [LT K] [LE K]
  [DecidableLT K] [DecidableLE K]

/-- At least three vertices; and the flags of a triangle are always set. -/
structure TriFlags (s : Polygon K) : Prop where
  long : 3 ≤ s.verts.length
  tri : s.verts.length = 3 → s.convex = some true ∧ s.simple = some true

namespace TriFlags

theorem of_eq {s t : Polygon K} (h : TriFlags s) (hv : t.verts = s.verts) (hc : t.convex = s.convex)
    (hs : t.simple = s.simple) : TriFlags t :=
  ⟨hv ▸ h.long, by rw [hc, hs, hv]; exact h.tri⟩

theorem of_long {s t : Polygon K} (h : TriFlags s) (hv : t.verts = s.verts) (hl : s.verts.length ≠ 3) : TriFlags t :=
  ⟨hv ▸ h.long, fun e => absurd (hv ▸ e) hl⟩

theorem cleared {vs : List (Vec2 K)} (h : 3 ≤ vs.length) (t) : TriFlags (Polygon.cleared vs t) :=
  ⟨h, fun e => by
    have e' : vs.length = 3 := e
    simp [Polygon.cleared, e']⟩

theorem new {vs : List (Vec2 K)} {c m} {s : Polygon K} (h : Polygon.new vs c m = .ok s) : TriFlags s := by
  unfold Polygon.new at h
  simp only at h
  split at h
  · simp at h
  · rename_i h3
    have h3 : 3 ≤ (vs.map Vec2.copy).length := by omega
    have h0 := cleared h3 none
    simp only [Except.ok.injEq] at h
    have fin : ∀ q : Polygon K, TriFlags q → TriFlags (match m, q.simple with
        | some b, none => { q with simple := some b } | _, _ => q) := by
      intro q hq; split
      · rename_i hqs
        refine of_long hq rfl fun e => ?_
        have := (hq.tri e).2
        rw [hqs] at this; cases this
      · exact hq
    rw [← h]
    refine fin _ ?_
    split
    · rename_i hcv
      have hl : (Polygon.cleared (vs.map Vec2.copy) none).verts.length ≠ 3 := fun e => by
        have := (h0.tri e).1
        rw [hcv] at this; cases this
      split
      · exact of_long h0 rfl hl
      · exact of_long h0 rfl hl
    · exact h0

theorem isConvex {s : Polygon K} (h : TriFlags s) : TriFlags s.isConvex.2 := by
  unfold Polygon.isConvex
  split
  · exact h
  · rename_i hc
    exact of_long h (classify_free s).1 fun e => by have := (h.tri e).1; rw [hc] at this; cases this

theorem isSimple {s : Polygon K} (h : TriFlags s) : TriFlags s.isSimple.2 := by
  unfold Polygon.isSimple
  split
  · exact h
  · rename_i hs
    have hl : s.verts.length ≠ 3 := fun e => by have := (h.tri e).2; rw [hs] at this; cases this
    simp only
    have : ∀ q : Polygon K, q.verts = s.verts → TriFlags (match q.simple with
        | some b => (b, q)
        | none => (checkSimple q.verts, { q with simple := some (checkSimple q.verts) }) : Bool × Polygon K).2 := by
      intro q hq; split
      · exact of_long h hq hl
      · exact of_long h hq hl
    refine this _ ?_
    split
    · exact (classify_free s).1
    · rfl

theorem getCentroid {s : Polygon K} (h : TriFlags s) : TriFlags s.getCentroid.2 := by
  unfold Polygon.getCentroid
  split
  · exact h
  · simp only
    split
    · split
      · exact h.isSimple
      · exact of_eq h.isSimple rfl rfl rfl
    · exact of_eq h.isSimple rfl rfl rfl

theorem boundingBox {s : Polygon K} (h : TriFlags s) : TriFlags s.boundingBox.2 := by
  unfold Polygon.boundingBox
  split
  · exact h
  · split
    · exact h
    · exact of_eq h rfl rfl rfl

theorem containsPoint {s : Polygon K} (h : TriFlags s) (eps : K) (p : PyPoint K) : TriFlags (s.containsPoint eps p).2 := by
  unfold Polygon.containsPoint
  simp only
  split
  · unfold pnpTriangle
    split
    · exact h
    · split
      · exact h
      · exact h
      · exact of_eq h rfl rfl rfl
  · split
    · exact h
    · exact h
    · split
      · exact h
      · split
        · exact h
        · have hb := h.boundingBox
          split
          · rename_i heq; rw [heq] at hb; exact hb
          · rename_i heq; rw [heq] at hb
            split <;> exact hb

theorem tangentsToPoint {s : Polygon K} (h : TriFlags s) (p : Vec2 K) : TriFlags (s.tangentsToPoint p).2 := by
  unfold Polygon.tangentsToPoint
  split
  · simp only
    split <;> exact h.isConvex
  · exact h

theorem setItem {s : Polygon K} (h : TriFlags s) (i : Int) (v : Vec2 K) : TriFlags (s.setItem i v).2 := by
  unfold Polygon.setItem pySet
  cases pyIndex s.verts.length i with
  | none => exact h
  | some k => exact cleared (by simpa using h.long) _

theorem imul {s : Polygon K} (h : TriFlags s) (T : Affine K) : TriFlags (s.imul T) := by
  unfold Polygon.imul
  simp only
  split
  · exact cleared (by rw [Sound.itransformFrom T _ s 0 rfl]; exact h.long) _
  · exact cleared h.long _

theorem transformed {s : Polygon K} (h : TriFlags s) (T : Affine K) : TriFlags (s.transformed T) :=
  cleared (by simpa [Affine.applyPts] using h.long) _

theorem copy {s : Polygon K} (h : TriFlags s) : TriFlags s.copy := of_eq h rfl rfl rfl

theorem deepcopy {s : Polygon K} (h : TriFlags s) : TriFlags s.deepcopy := of_eq h rfl rfl rfl

theorem run {s : Polygon K} (h : TriFlags s) (eps : K) (o : PolyOp K) : TriFlags (o.run eps s) := by
  cases o with
  | setItem i v => exact h.setItem i v
  | imul T => exact h.imul T
  | isConvex => exact h.isConvex
  | isSimple => exact h.isSimple
  | centroid => exact h.getCentroid
  | boundingBox => exact h.boundingBox
  | contains p => exact h.containsPoint eps p
  | tangents p => exact h.tangentsToPoint p

theorem convexHull {order} {ps : List (Vec2 K)} {s : Polygon K} (h : Hull.convexHull order ps = .ok s) : TriFlags s := by
  unfold Hull.convexHull at h
  cases hh : Hull.quickHull order ps with
  | error e => rw [hh] at h; simp [bind, Except.bind] at h
  | ok vs =>
    rw [hh] at h
    simp only [bind, Except.bind] at h
    exact new h

variable [PyMath K]

theorem regular {n : Int} {r : K} {c : Vec2 K} {a : K} {s : Polygon K} (h : Polygon.regular n r c a = .ok s) : TriFlags s := by
  unfold Polygon.regular at h
  cases hs : pydiv (PyMath.ofInt 360 : K) (PyMath.ofInt n) with
  | error e => rw [hs] at h; simp [bind, Except.bind] at h
  | ok step =>
    rw [hs] at h
    simp only [bind, Except.bind] at h
    cases hn : Polygon.new (regularVerts step r c n.toNat a) (some true) none with
    | error e => rw [hn] at h; simp at h
    | ok q =>
      rw [hn] at h
      simp only [pure, Except.pure, Except.ok.injEq] at h
      rw [← h]
      exact of_eq (new hn) rfl rfl rfl

theorem star {n : Int} {r1 r2 : K} {c : Vec2 K} {a : K} {s : Polygon K} (h : Polygon.star n r1 r2 c a = .ok s) : TriFlags s := by
  unfold Polygon.star at h
  split at h
  · simp at h
  · cases hs : pydiv (PyMath.ofInt 180 : K) (PyMath.ofInt n) with
    | error e => rw [hs] at h; simp [bind, Except.bind] at h
    | ok step =>
      rw [hs] at h
      simp only [bind, Except.bind] at h
      split at h
      · simp at h
      · rename_i q hn
        simp only [pure, Except.pure, Except.ok.injEq] at h
        rw [← h]
        refine of_eq (new hn) ?_ ?_ ?_
        · split <;> split <;> split <;> rfl
        · split <;> split <;> split <;> rfl
        · split <;> split <;> split <;> rfl

theorem reachable {eps : K} {order} {s : Polygon K} (h : Reachable eps order s) : TriFlags s := by
  induction h with
  | new vs c m s h => exact new h
  | points vs h => exact cleared h none
  | regular n r c a s h => exact regular h
  | star n r1 r2 c a s h => exact star h
  | hull ps s h => exact convexHull h
  | hullPoly t s ht h ih =>
    unfold Hull.convexHullPoly at h
    split at h
    · injection h with h; rw [← h]; exact ih.copy
    · exact convexHull h
  | box b s h => exact new h
  | boxMul b T s h =>
    unfold Box.mulT at h
    split at h
    · cases hf : Box.fromPoints [T.apply b.min, T.apply b.max] with
      | error e => rw [hf] at h; simp [bind, Except.bind] at h
      | ok r => rw [hf] at h; simp [bind, Except.bind, pure, Except.pure] at h
    · cases hf : b.toPolygon with
      | error e => rw [hf] at h; simp [bind, Except.bind] at h
      | ok q =>
        rw [hf] at h
        simp only [bind, Except.bind, pure, Except.pure, Except.ok.injEq, Shape.poly.injEq] at h
        rw [← h]; exact imul (new hf) T
  | fit b t s ht h ih =>
    unfold Box.fitPolygon at h
    have hv := ih.boundingBox
    split at h
    · simp at h
    · rename_i heq
      rw [heq] at hv
      split at h
      · simp at h
      · simp only [Except.ok.injEq] at h
        rw [← h]; exact hv.transformed _
  | transformed s hs T ih => exact ih.transformed T
  | copy s hs ih => exact ih.copy
  | deepcopy s hs ih => exact ih.deepcopy
  | op s hs o ih => exact ih.run eps o

end TriFlags
end Free

section
variable {K : Type} [LinearOrder K] [Add K] [Sub K] [Mul K] [Div K] [Neg K] [Zero K] [One K] [RoundedArith K]

/-- **C60** for every polygon object a program can hold, with any flags, from any constructor and with any history: the
call that `repr` prints succeeds, and builds a polygon with the same vertices that is equal to the original and answers
`is_convex` as the original does. -/
theorem C60_polygon_all [PyMath K] (eps : K) (order) (s : Polygon K) (h : Reachable eps order s) :
    ∃ q, Polygon.new s.reprArgs.1 s.reprArgs.2.1 s.reprArgs.2.2 = .ok q ∧
      q.verts = s.verts ∧ q.eq s = true ∧ s.eq q = true ∧ q.isConvex.1 = s.isConvex.1 :=
  have t := TriFlags.reachable h
  C60_polygon s t.long fun e => (t.tri e).1

/-- **C60** `is_convex` and `is_simple` of every triangle object are True, also if the opposite was declared. -/
theorem C60_triangle_flags [PyMath K] (eps : K) (order) (s : Polygon K) (h : Reachable eps order s)
    (h3 : s.verts.length = 3) : s.isConvex.1 = true ∧ s.isSimple.1 = true := by
  obtain ⟨h1, h2⟩ := (TriFlags.reachable h).tri h3
  unfold isConvex isSimple
  simp [h1, h2]

private instance : DecidableEq (Vec2 ℚ) := fun a b => decidable_of_iff (a.x = b.x ∧ a.y = b.y) Vec2.ext_iff.symm

/-- Such an object: a copy of the transform of a quadrilateral that was declared not convex. -/
example [PyMath ℚ] (order) : ∃ s t : Polygon ℚ,
    Polygon.new [⟨0, 0⟩, ⟨4, 0⟩, ⟨1, 1⟩, ⟨0, 4⟩] (some false) (some true) = .ok s ∧
    t = ((PolyOp.imul ⟨2, 0, 0, 0, 1, 0⟩).run (1/100000) s).copy ∧ Reachable (1/100000) order t ∧
    t.verts = [⟨0, 0⟩, ⟨8, 0⟩, ⟨2, 1⟩, ⟨0, 4⟩] :=
  ⟨_, _, rfl, rfl, .copy _ (.op _ (.new [⟨0, 0⟩, ⟨4, 0⟩, ⟨1, 1⟩, ⟨0, 4⟩] (some false) (some true) _ rfl) _), by decide +kernel⟩

end
end Planar
