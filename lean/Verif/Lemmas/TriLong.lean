import Verif.Props.NoRaise
import Verif.Lemmas.PolyState
/- The stored triangle test of a polygon a program can hold: only triangles have one. -/
set_option linter.unusedSectionVars false
namespace Planar
open Polygon Spec
variable {K : Type} [LinearOrder K] [Add K] [Sub K] [Mul K] [Div K] [Neg K] [Zero K] [One K] [RoundedArith K]

/-- Only polygons with at most three vertices own a triangle test. -/
def TriLong (s : Polygon K) : Prop := 3 < s.verts.length → s.triTest = none

namespace TriLong

theorem of_eq {s t : Polygon K} (h : TriLong s) (hv : t.verts = s.verts) (ht : t.triTest = s.triTest) : TriLong t := by
  unfold TriLong; rw [hv, ht]; exact h

theorem cleared (vs : List (Vec2 K)) (t) (h : 3 < vs.length → t = none) : TriLong (Polygon.cleared vs t) := by
  intro h3
  have h3' : 3 < vs.length := h3
  simp [Polygon.cleared, h h3']

theorem new {vs : List (Vec2 K)} {c m} {s : Polygon K} (h : Polygon.new vs c m = .ok s) : TriLong s := by
  unfold Polygon.new at h
  simp only at h
  split at h
  · simp at h
  · have h0 := cleared (vs.map Vec2.copy) none (fun _ => rfl)
    simp only [Except.ok.injEq] at h
    have fin : ∀ q : Polygon K, TriLong q → TriLong (match m, q.simple with
        | some b, none => { q with simple := some b } | _, _ => q) := by
      intro q hq; split
      · exact of_eq hq rfl rfl
      · exact hq
    rw [← h]
    refine fin _ ?_
    split
    · split
      · exact of_eq h0 rfl rfl
      · exact of_eq h0 rfl rfl
    · exact h0

theorem classify {s : Polygon K} (h : TriLong s) : TriLong s.classify := by
  refine of_eq h ?_ ?_
  · exact (classify_free s).1
  · unfold Polygon.classify; simp only; split_ifs <;> rfl

theorem isConvex {s : Polygon K} (h : TriLong s) : TriLong s.isConvex.2 := by
  unfold Polygon.isConvex
  split
  · exact h
  · exact h.classify

theorem isSimple {s : Polygon K} (h : TriLong s) : TriLong s.isSimple.2 := by
  unfold Polygon.isSimple
  split
  · exact h
  · simp only
    have : ∀ q : Polygon K, TriLong q → TriLong (match q.simple with
        | some b => (b, q)
        | none => (checkSimple q.verts, { q with simple := some (checkSimple q.verts) }) : Bool × Polygon K).2 := by
      intro q hq; split
      · exact hq
      · exact of_eq hq rfl rfl
    refine this _ ?_
    split
    · exact h.classify
    · exact h

theorem getCentroid {s : Polygon K} (h : TriLong s) : TriLong s.getCentroid.2 := by
  unfold Polygon.getCentroid
  split
  · exact h
  · simp only
    split
    · split
      · exact h.isSimple
      · exact of_eq h.isSimple rfl rfl
    · exact of_eq h.isSimple rfl rfl

theorem boundingBox {s : Polygon K} (h : TriLong s) : TriLong s.boundingBox.2 := by
  unfold Polygon.boundingBox
  split
  · exact h
  · split
    · exact h
    · exact of_eq h rfl rfl

theorem containsPoint {s : Polygon K} (h : TriLong s) (eps : K) (p : PyPoint K) : TriLong (s.containsPoint eps p).2 := by
  unfold Polygon.containsPoint
  simp only
  split
  · rename_i h3
    unfold pnpTriangle
    split
    · exact h
    · split
      · exact h
      · exact h
      · exact fun h4 => absurd h4 (by simp only; omega)
  · split
    · exact h
    · exact h
    · split
      · exact h
      · split
        · exact h
        · have hb := h.boundingBox
          split
          · rename_i heq; rw [heq] at hb; exact hb
          · rename_i heq; rw [heq] at hb
            split <;> exact hb

theorem tangentsToPoint {s : Polygon K} (h : TriLong s) (p : Vec2 K) : TriLong (s.tangentsToPoint p).2 := by
  unfold Polygon.tangentsToPoint
  split
  · simp only
    split <;> exact h.isConvex
  · exact h

theorem setItem {s : Polygon K} (h : TriLong s) (i : Int) (v : Vec2 K) : TriLong (s.setItem i v).2 := by
  unfold Polygon.setItem pySet
  cases pyIndex s.verts.length i with
  | none => exact h
  | some k => exact cleared _ _ fun h3 => h (by simpa using h3)

theorem imul {s : Polygon K} (h : TriLong s) (T : Affine K) : TriLong (s.imul T) := by
  rw [imul_eq_cleared]
  refine cleared _ _ fun h3 => ?_
  have h3 : 3 < s.verts.length := by simpa using h3
  simp [h3, h h3]

theorem transformed {s : Polygon K} (_ : TriLong s) (T : Affine K) : TriLong (s.transformed T) := cleared _ _ fun _ => rfl

theorem copy {s : Polygon K} (h : TriLong s) : TriLong s.copy := fun h3 => by simp [Polygon.copy, Polygon.fromPoints, Polygon.cleared]

theorem deepcopy {s : Polygon K} (h : TriLong s) : TriLong s.deepcopy := fun h3 => by simp [Polygon.deepcopy, Polygon.copy, Polygon.fromPoints, Polygon.cleared]

theorem run {s : Polygon K} (h : TriLong s) (eps : K) (o : PolyOp K) : TriLong (o.run eps s) := by
  cases o with
  | setItem i v => exact h.setItem i v
  | imul T => exact h.imul T
  | isConvex => exact h.isConvex
  | isSimple => exact h.isSimple
  | centroid => exact h.getCentroid
  | boundingBox => exact h.boundingBox
  | contains p => exact h.containsPoint eps p
  | tangents p => exact h.tangentsToPoint p

theorem convexHull {order} {ps : List (Vec2 K)} {s : Polygon K} (h : Hull.convexHull order ps = .ok s) : TriLong s := by
  unfold Hull.convexHull at h
  cases hh : Hull.quickHull order ps with
  | error e => rw [hh] at h; simp [bind, Except.bind] at h
  | ok vs =>
    rw [hh] at h
    simp only [bind, Except.bind] at h
    exact new h

variable [PyMath K]

theorem regular {n : Int} {r : K} {c : Vec2 K} {a : K} {s : Polygon K} (h : Polygon.regular n r c a = .ok s) : TriLong s := by
  unfold Polygon.regular at h
  cases hs : pydiv (PyMath.ofInt 360 : K) (PyMath.ofInt n) with
  | error e => rw [hs] at h; simp [bind, Except.bind] at h
  | ok step =>
    rw [hs] at h
    simp only [bind, Except.bind] at h
    cases hn : Polygon.new (regularVerts step r c n.toNat a) (some true) none with
    | error e => rw [hn] at h; simp at h
    | ok q =>
      rw [hn] at h
      simp only [pure, Except.pure, Except.ok.injEq] at h
      rw [← h]
      exact of_eq (new hn) rfl rfl

theorem star {n : Int} {r1 r2 : K} {c : Vec2 K} {a : K} {s : Polygon K} (h : Polygon.star n r1 r2 c a = .ok s) : TriLong s := by
  unfold Polygon.star at h
  split at h
  · simp at h
  · cases hs : pydiv (PyMath.ofInt 180 : K) (PyMath.ofInt n) with
    | error e => rw [hs] at h; simp [bind, Except.bind] at h
    | ok step =>
      rw [hs] at h
      simp only [bind, Except.bind] at h
      split at h
      · simp at h
      · rename_i q hn
        simp only [pure, Except.pure, Except.ok.injEq] at h
        rw [← h]
        refine of_eq (new hn) ?_ ?_
        · split <;> split <;> split <;> rfl
        · split <;> split <;> split <;> rfl

theorem reachable {eps : K} {order} {s : Polygon K} (h : Reachable eps order s) : TriLong s := by
  induction h with
  | new vs c m s h => exact new h
  | points vs h => exact cleared _ _ fun _ => rfl
  | regular n r c a s h => exact regular h
  | star n r1 r2 c a s h => exact star h
  | hull ps s h => exact convexHull h
  | hullPoly t s ht h ih =>
    unfold Hull.convexHullPoly at h
    split at h
    · injection h with h; rw [← h]; exact ih.copy
    · exact convexHull h
  | box b s h => exact new h
  | boxMul b T s h =>
    unfold Box.mulT at h
    split at h
    · cases hf : Box.fromPoints [T.apply b.min, T.apply b.max] with
      | error e => rw [hf] at h; simp [bind, Except.bind] at h
      | ok r => rw [hf] at h; simp [bind, Except.bind, pure, Except.pure] at h
    · cases hf : b.toPolygon with
      | error e => rw [hf] at h; simp [bind, Except.bind] at h
      | ok q =>
        rw [hf] at h
        simp only [bind, Except.bind, pure, Except.pure, Except.ok.injEq, Shape.poly.injEq] at h
        rw [← h]; exact imul (new hf) T
  | fit b t s ht h ih =>
    unfold Box.fitPolygon at h
    have hv := ih.boundingBox
    split at h
    · simp at h
    · rename_i heq
      rw [heq] at hv
      split at h
      · simp at h
      · simp only [Except.ok.injEq] at h
        rw [← h]; exact hv.transformed _
  | transformed s hs T ih => exact ih.transformed T
  | copy s hs ih => exact ih.copy
  | deepcopy s hs ih => exact ih.deepcopy
  | op s hs o ih => exact ih.run eps o

end TriLong
end Planar
