import Verif.Spec.Reachable
import Verif.Lemmas.Sort
import Mathlib.Data.List.Induction
import Mathlib.Order.Lattice
import Mathlib.Tactic.Set
/- C74: which exceptions can leave the operations of a polygon object, whatever the arithmetic. -/
set_option linter.unusedSectionVars false
namespace Planar
open Polygon

section Free
/- Nothing at all is assumed of the numbers: rounding, overflow, infinities and NaN are all allowed. -/
variable {K : Type} [Add K] [Sub K] [Mul K] [Div K] [Neg K] [Zero K] [One K] [BEq K] [LT K] [LE K]
  [DecidableLT K] [DecidableLE K]

/-- The stored polylines, if any, are those of the current vertices. -/
structure Sound (s : Polygon K) : Prop where
  long : 3 ≤ s.verts.length
  ypl : ∀ pls, s.yPolylines = some pls → pls = splitYPolylines s.verts

theorem classify_free (s : Polygon K) : s.classify.verts = s.verts ∧
    (s.classify.yPolylines = s.yPolylines ∨ s.classify.yPolylines = some (splitYPolylines s.verts)) := by
  unfold Polygon.classify
  simp only
  generalize (if (classifyRun s.verts).dirChanges ≤ 2 then (classifyRun s.verts).convex else false) = b
  generalize ((classifyRun s.verts).count == 0 || (classifyRun s.verts).angleSign == 0) = d
  cases b <;> cases d <;> simp

namespace Sound

theorem of_eq {s t : Polygon K} (h : Sound s) (hv : t.verts = s.verts) (hp : t.yPolylines = s.yPolylines) : Sound t :=
  ⟨hv ▸ h.long, by rw [hp, hv]; exact h.ypl⟩

theorem cleared {vs : List (Vec2 K)} (h : 3 ≤ vs.length) (t) : Sound (Polygon.cleared vs t) :=
  ⟨h, fun pls e => by simp [Polygon.cleared] at e⟩

theorem new {vs : List (Vec2 K)} {c m} {s : Polygon K} (h : Polygon.new vs c m = .ok s) : Sound s := by
  unfold Polygon.new at h
  simp only at h
  split at h
  · simp at h
  · rename_i h3
    have h3 : 3 ≤ (vs.map Vec2.copy).length := by omega
    simp only [Except.ok.injEq] at h
    have fin : ∀ q : Polygon K, Sound q → Sound (match m, q.simple with
        | some b, none => { q with simple := some b } | _, _ => q) := by
      intro q hq; split
      · exact of_eq hq rfl rfl
      · exact hq
    rw [← h]
    refine fin _ ?_
    split
    · split
      · exact ⟨h3, fun pls e => by simp only [Option.some.injEq] at e; exact e.symm⟩
      · exact of_eq (cleared h3 none) rfl rfl
    · exact cleared h3 none

theorem classify {s : Polygon K} (h : Sound s) : Sound s.classify := by
  obtain ⟨h1, h2⟩ := classify_free s
  rcases h2 with h2 | h2
  · exact of_eq h h1 h2
  · exact ⟨h1 ▸ h.long, fun pls e => by rw [h2] at e; rw [h1]; exact (Option.some.inj e).symm⟩

theorem isConvex {s : Polygon K} (h : Sound s) : Sound s.isConvex.2 := by
  unfold Polygon.isConvex
  split
  · exact h
  · exact h.classify

theorem isSimple {s : Polygon K} (h : Sound s) : Sound s.isSimple.2 := by
  unfold Polygon.isSimple
  split
  · exact h
  · simp only
    have : ∀ q : Polygon K, Sound q → Sound (match q.simple with
        | some b => (b, q)
        | none => (checkSimple q.verts, { q with simple := some (checkSimple q.verts) }) : Bool × Polygon K).2 := by
      intro q hq; split
      · exact hq
      · exact of_eq hq rfl rfl
    refine this _ ?_
    split
    · exact h.classify
    · exact h

theorem getCentroid {s : Polygon K} (h : Sound s) : Sound s.getCentroid.2 := by
  unfold Polygon.getCentroid
  split
  · exact h
  · simp only
    split
    · split
      · exact h.isSimple
      · exact of_eq h.isSimple rfl rfl
    · exact of_eq h.isSimple rfl rfl

theorem boundingBox {s : Polygon K} (h : Sound s) : Sound s.boundingBox.2 := by
  unfold Polygon.boundingBox
  split
  · exact h
  · split
    · exact h
    · exact of_eq h rfl rfl

theorem containsPoint {s : Polygon K} (h : Sound s) (eps : K) (p : PyPoint K) : Sound (s.containsPoint eps p).2 := by
  unfold Polygon.containsPoint
  simp only
  split
  · unfold pnpTriangle
    split
    · exact h
    · split
      · exact h
      · exact h
      · exact of_eq h rfl rfl
  · split
    · exact h
    · exact h
    · split
      · exact h
      · split
        · exact h
        · have hb := h.boundingBox
          split
          · rename_i heq; rw [heq] at hb; exact hb
          · rename_i heq; rw [heq] at hb
            split <;> exact hb

theorem tangentsToPoint {s : Polygon K} (h : Sound s) (p : Vec2 K) : Sound (s.tangentsToPoint p).2 := by
  unfold Polygon.tangentsToPoint
  split
  · simp only
    split <;> exact h.isConvex
  · exact h

theorem setItem {s : Polygon K} (h : Sound s) (i : Int) (v : Vec2 K) : Sound (s.setItem i v).2 := by
  unfold Polygon.setItem pySet
  cases pyIndex s.verts.length i with
  | none => exact h
  | some k => exact cleared (by simpa using h.long) _

theorem itransformFrom (T : Affine K) (n : Nat) (s : Polygon K) (i : Nat) (hn : s.verts.length - i = n) :
    (Polygon.itransformFrom T s i).verts.length = s.verts.length := by
  induction n generalizing s i with
  | zero =>
    unfold Polygon.itransformFrom
    rw [dif_neg (by omega)]
  | succ n ih =>
    unfold Polygon.itransformFrom
    rw [dif_pos (by omega)]
    simp only
    rw [ih]
    · simp [clearCached, Polygon.cleared]
    · simp [clearCached, Polygon.cleared]; omega

theorem imul {s : Polygon K} (h : Sound s) (T : Affine K) : Sound (s.imul T) := by
  unfold Polygon.imul
  simp only
  split
  · exact cleared (by rw [itransformFrom T _ s 0 rfl]; exact h.long) _
  · exact cleared h.long _

theorem transformed {s : Polygon K} (h : Sound s) (T : Affine K) : Sound (s.transformed T) :=
  cleared (by simpa [Affine.applyPts] using h.long) _

theorem copy {s : Polygon K} (h : Sound s) : Sound s.copy := of_eq h rfl rfl

theorem deepcopy {s : Polygon K} (h : Sound s) : Sound s.deepcopy := ⟨h.long, fun pls e => by simp [Polygon.deepcopy] at e⟩

theorem run {s : Polygon K} (h : Sound s) (eps : K) (o : PolyOp K) : Sound (o.run eps s) := by
  cases o with
  | setItem i v => exact h.setItem i v
  | imul T => exact h.imul T
  | isConvex => exact h.isConvex
  | isSimple => exact h.isSimple
  | centroid => exact h.getCentroid
  | boundingBox => exact h.boundingBox
  | contains p => exact h.containsPoint eps p
  | tangents p => exact h.tangentsToPoint p

theorem convexHull {order} {ps : List (Vec2 K)} {s : Polygon K} (h : Hull.convexHull order ps = .ok s) : Sound s := by
  unfold Hull.convexHull at h
  cases hh : Hull.quickHull order ps with
  | error e => rw [hh] at h; simp [bind, Except.bind] at h
  | ok vs =>
    rw [hh] at h
    simp only [bind, Except.bind] at h
    exact new h

variable [PyMath K]

theorem regular {n : Int} {r : K} {c : Vec2 K} {a : K} {s : Polygon K} (h : Polygon.regular n r c a = .ok s) : Sound s := by
  unfold Polygon.regular at h
  cases hs : pydiv (PyMath.ofInt 360 : K) (PyMath.ofInt n) with
  | error e => rw [hs] at h; simp [bind, Except.bind] at h
  | ok step =>
    rw [hs] at h
    simp only [bind, Except.bind] at h
    cases hn : Polygon.new (regularVerts step r c n.toNat a) (some true) none with
    | error e => rw [hn] at h; simp at h
    | ok q =>
      rw [hn] at h
      simp only [pure, Except.pure, Except.ok.injEq] at h
      rw [← h]
      exact of_eq (new hn) rfl rfl

theorem star {n : Int} {r1 r2 : K} {c : Vec2 K} {a : K} {s : Polygon K} (h : Polygon.star n r1 r2 c a = .ok s) : Sound s := by
  unfold Polygon.star at h
  split at h
  · simp at h
  · cases hs : pydiv (PyMath.ofInt 180 : K) (PyMath.ofInt n) with
    | error e => rw [hs] at h; simp [bind, Except.bind] at h
    | ok step =>
      rw [hs] at h
      simp only [bind, Except.bind] at h
      split at h
      · simp at h
      · rename_i q hn
        simp only [pure, Except.pure, Except.ok.injEq] at h
        rw [← h]
        refine of_eq (new hn) ?_ ?_
        · split <;> split <;> split <;> rfl
        · split <;> split <;> split <;> rfl

theorem reachable {eps : K} {order} {s : Polygon K} (h : Reachable eps order s) : Sound s := by
  induction h with
  | new vs c m s h => exact new h
  | points vs h => exact cleared h none
  | regular n r c a s h => exact regular h
  | star n r1 r2 c a s h => exact star h
  | hull ps s h => exact convexHull h
  | hullPoly t s ht h ih =>
    unfold Hull.convexHullPoly at h
    split at h
    · injection h with h; rw [← h]; exact ih.copy
    · exact convexHull h
  | box b s h => exact new h
  | boxMul b T s h =>
    unfold Box.mulT at h
    split at h
    · cases hf : Box.fromPoints [T.apply b.min, T.apply b.max] with
      | error e => rw [hf] at h; simp [bind, Except.bind] at h
      | ok r => rw [hf] at h; simp [bind, Except.bind, pure, Except.pure] at h
    · cases hf : b.toPolygon with
      | error e => rw [hf] at h; simp [bind, Except.bind] at h
      | ok q =>
        rw [hf] at h
        simp only [bind, Except.bind, pure, Except.pure, Except.ok.injEq, Shape.poly.injEq] at h
        rw [← h]; exact imul (new hf) T
  | fit b t s ht h ih =>
    unfold Box.fitPolygon at h
    have hv := ih.boundingBox
    split at h
    · simp at h
    · rename_i heq
      rw [heq] at hv
      split at h
      · simp at h
      · simp only [Except.ok.injEq] at h
        rw [← h]; exact hv.transformed _
  | transformed s hs T ih => exact ih.transformed T
  | copy s hs ih => exact ih.copy
  | deepcopy s hs ih => exact ih.deepcopy
  | op s hs o ih => exact ih.run eps o

end Sound

theorem pyGet_ok {α : Type} (l : List α) (i : Int) (h1 : -(l.length : Int) ≤ i) (h2 : i < l.length) :
    ∃ v, pyGet l i = .ok v := by
  unfold pyGet pyIndex
  by_cases h : 0 ≤ i
  · have : i.toNat < l.length := by omega
    simp [this, h]
  · have g1 : (-i).toNat ≤ l.length := by omega
    have g2 : l.length - (-i).toNat < l.length := by omega
    simp [h, g1, List.getElem?_eq_getElem g2]

theorem leftLoop_ok (vs : List (Vec2 K)) (p : Vec2 K) (lim : Nat) (a b : Int) (ha : -1 ≤ a) (hab : a ≤ b)
    (hb : b ≤ vs.length - 1) (ha' : a ≤ vs.length - 2) (h2 : 2 ≤ vs.length) :
    ∃ c, leftTanLoop vs p lim a b = .ok c ∧ -1 ≤ c ∧ c ≤ vs.length - 2 := by
  induction lim generalizing a b with
  | zero => exact ⟨a, rfl, ha, ha'⟩
  | succ lim ih =>
    obtain ⟨x1, e1⟩ := pyGet_ok vs ((a + b) / 2 + 1) (by omega) (by omega)
    obtain ⟨x2, e2⟩ := pyGet_ok vs ((a + b) / 2) (by omega) (by omega)
    obtain ⟨x3, e3⟩ := pyGet_ok vs ((a + b) / 2 - 1) (by omega) (by omega)
    obtain ⟨x4, e4⟩ := pyGet_ok vs (a + 1) (by omega) (by omega)
    obtain ⟨x5, e5⟩ := pyGet_ok vs a (by omega) (by omega)
    simp only [leftTanLoop, e1, e2, e3, e4, e5, bind, Except.bind, pure, Except.pure]
    split_ifs
    · exact ⟨_, rfl, by omega, by omega⟩
    all_goals exact ih _ _ (by omega) (by omega) (by omega) (by omega)

theorem rightLoop_ok (vs : List (Vec2 K)) (p : Vec2 K) (lim : Nat) (a b : Int) (ha : -1 ≤ a) (hab : a ≤ b)
    (hb : b ≤ vs.length - 1) (ha' : a ≤ vs.length - 2) (h2 : 2 ≤ vs.length) :
    ∃ c, rightTanLoop vs p lim a b = .ok c ∧ -1 ≤ c ∧ c ≤ vs.length - 2 := by
  induction lim generalizing a b with
  | zero => exact ⟨a, rfl, ha, ha'⟩
  | succ lim ih =>
    obtain ⟨x1, e1⟩ := pyGet_ok vs ((a + b) / 2 + 1) (by omega) (by omega)
    obtain ⟨x2, e2⟩ := pyGet_ok vs ((a + b) / 2) (by omega) (by omega)
    obtain ⟨x3, e3⟩ := pyGet_ok vs ((a + b) / 2 - 1) (by omega) (by omega)
    obtain ⟨x4, e4⟩ := pyGet_ok vs (a + 1) (by omega) (by omega)
    obtain ⟨x5, e5⟩ := pyGet_ok vs a (by omega) (by omega)
    simp only [rightTanLoop, e1, e2, e3, e4, e5, bind, Except.bind, pure, Except.pure]
    split_ifs
    · exact ⟨_, rfl, by omega, by omega⟩
    all_goals exact ih _ _ (by omega) (by omega) (by omega) (by omega)

theorem leftTan_ok (vs : List (Vec2 K)) (p : Vec2 K) (h2 : 2 ≤ vs.length) :
    ∃ c, leftTan vs p = .ok c ∧ -1 ≤ c ∧ c ≤ vs.length - 2 := by
  obtain ⟨x1, e1⟩ := pyGet_ok vs 0 (by omega) (by omega)
  obtain ⟨x2, e2⟩ := pyGet_ok vs (-1) (by omega) (by omega)
  obtain ⟨x3, e3⟩ := pyGet_ok vs (-2) (by omega) (by omega)
  simp only [leftTan, e1, e2, e3, bind, Except.bind, pure, Except.pure]
  split_ifs
  · exact ⟨_, rfl, by omega, by omega⟩
  · exact leftLoop_ok vs p _ _ _ (by omega) (by omega) (by omega) (by omega) h2

theorem rightTan_ok (vs : List (Vec2 K)) (p : Vec2 K) (h2 : 2 ≤ vs.length) :
    ∃ c, rightTan vs p = .ok c ∧ -1 ≤ c ∧ c ≤ vs.length - 2 := by
  obtain ⟨x1, e1⟩ := pyGet_ok vs 0 (by omega) (by omega)
  obtain ⟨x2, e2⟩ := pyGet_ok vs (-1) (by omega) (by omega)
  obtain ⟨x3, e3⟩ := pyGet_ok vs (-2) (by omega) (by omega)
  simp only [rightTan, e1, e2, e3, bind, Except.bind, pure, Except.pure]
  split_ifs
  · exact ⟨_, rfl, by omega, by omega⟩
  · exact rightLoop_ok vs p _ _ _ (by omega) (by omega) (by omega) (by omega) h2

theorem ptTangents_ok (vs : List (Vec2 K)) (p : Vec2 K) (h2 : 2 ≤ vs.length) : ∃ lr, ptTangents vs p = .ok lr := by
  obtain ⟨x1, e1⟩ := pyGet_ok vs 0 (by omega) (by omega)
  obtain ⟨x2, e2⟩ := pyGet_ok vs (-1) (by omega) (by omega)
  obtain ⟨x3, e3⟩ := pyGet_ok vs (-2) (by omega) (by omega)
  simp only [ptTangents, e1, e2, e3, bind, Except.bind, pure, Except.pure]
  exact ⟨_, rfl⟩

theorem isConvex_verts_free (s : Polygon K) : s.isConvex.2.verts = s.verts := by
  unfold Polygon.isConvex
  split
  · rfl
  · exact (classify_free s).1

theorem isSimple_verts_free (s : Polygon K) : s.isSimple.2.verts = s.verts := by
  have key : ∀ q : Polygon K, (match q.simple with
      | some b => (b, q)
      | none => (checkSimple q.verts, { q with simple := some (checkSimple q.verts) }) : Bool × Polygon K).2.verts = q.verts := by
    intro q; split <;> rfl
  unfold Polygon.isSimple
  split
  · rfl
  · simp only
    refine (key _).trans ?_
    split
    · exact (classify_free s).1
    · rfl

theorem sdiv_error {v : Vec2 K} {k : K} {e : PyErr} (h : v.sdiv k = .error e) : e = .zeroDivisionError := by
  by_cases hk : (k == 0) = true
  · simp only [Vec2.sdiv, pydiv, hk, if_true, bind, Except.bind, Except.error.injEq] at h
    exact h.symm
  · simp [Vec2.sdiv, pydiv, hk, bind, Except.bind, pure, Except.pure] at h

/-- **C74** whatever the arithmetic (NaN and infinities included), `tangents_to_point` of a point object raises nothing on
any polygon the API can build, in any state. -/
theorem C74_tangents [PyMath K] (eps : K) (order) (s : Polygon K) (h : Reachable eps order s) (p : Vec2 K) :
    ∃ lr, (s.tangentsToPoint p).1 = .ok lr := by
  have h2 : 2 ≤ s.verts.length := by have := (Sound.reachable h).long; omega
  unfold Polygon.tangentsToPoint
  split
  · simp only [isConvex_verts_free]
    split
    · obtain ⟨i, i1, i2, i3⟩ := leftTan_ok s.verts p h2
      obtain ⟨j, j1, j2, j3⟩ := rightTan_ok s.verts p h2
      obtain ⟨x1, e1⟩ := pyGet_ok s.verts i (by omega) (by omega)
      obtain ⟨x2, e2⟩ := pyGet_ok s.verts j (by omega) (by omega)
      simp only [i1, j1, e1, e2, bind, Except.bind, pure, Except.pure]
      exact ⟨_, rfl⟩
    · exact ptTangents_ok s.verts p h2
  · exact ptTangents_ok s.verts p h2

/-- **C74** whatever the arithmetic, `bounding_box` raises nothing on any polygon the API can build. -/
theorem C74_bounding_box [PyMath K] (eps : K) (order) (s : Polygon K) (h : Reachable eps order s) :
    ∃ b, s.boundingBox.1 = .ok b := by
  have h3 := (Sound.reachable h).long
  unfold Polygon.boundingBox
  cases s.bbox with
  | some b => exact ⟨b, rfl⟩
  | none =>
    cases hv : s.verts with
    | nil => rw [hv] at h3; simp at h3
    | cons v vs => exact ⟨_, rfl⟩

/-- **C74** whatever the arithmetic, `centroid` raises at most ZeroDivisionError. -/
theorem C74_centroid [PyMath K] (eps : K) (order) (s : Polygon K) (h : Reachable eps order s) (e : PyErr)
    (he : s.getCentroid.1 = .error e) : e = .zeroDivisionError := by
  have h3 := (Sound.reachable h).long
  unfold Polygon.getCentroid at he
  split at he
  · simp at he
  · simp only [isSimple_verts_free] at he
    split at he
    · obtain ⟨x1, e1⟩ := pyGet_ok s.verts 0 (by omega) (by omega)
      obtain ⟨x2, e2⟩ := pyGet_ok s.verts 1 (by omega) (by omega)
      have key : ∀ e, computeCentroid s.verts = .error e → e = .zeroDivisionError := by
        intro e he
        simp only [computeCentroid, e1, e2, bind, Except.bind] at he
        exact sdiv_error he
      split at he
      · rename_i hc
        simp only [Except.error.injEq] at he
        rw [← he]; exact key _ hc
      · simp at he
    · simp at he

/-- What a user sees of the state that matters for `contains_point`: the centroid is known, and it is None. -/
def CentroidKnownNone (s : Polygon K) : Prop := s.isCentroidKnown = true ∧ s.getCentroid.1 = .ok none

theorem centroidKnownNone_iff (s : Polygon K) : CentroidKnownNone s ↔ s.centroid = some none := by
  unfold CentroidKnownNone isCentroidKnown getCentroid
  cases h : s.centroid with
  | none => simp
  | some c => simp

theorem pnpTriangle_ok (eps : K) (s : Polygon K) (h3 : s.verts.length = 3) (p : Vec2 K) :
    ∃ b, (s.pnpTriangle eps (.vec p)).1 = .ok b := by
  have run : ∀ c : TriClosure K, ∃ b, Polygon.TriClosure.run c (.vec p) = .ok b := by
    intro c
    unfold Polygon.TriClosure.run PyPoint.sub
    simp only [bind, Except.bind, pure, Except.pure]
    split <;> exact ⟨_, rfl⟩
  unfold pnpTriangle
  cases s.triTest with
  | some c => exact run c
  | none =>
    have hc : ∃ o, triangleClosure eps s.verts = .ok o := by
      unfold triangleClosure
      have hl : (pySorted yxLt s.verts).length = 3 := by rw [(pySorted_perm _ _).length_eq, h3]
      match h : pySorted yxLt s.verts, hl with
      | [a, b, c], _ =>
        simp only
        split
        · exact ⟨_, rfl⟩
        · split
          · exact ⟨_, rfl⟩
          · rename_i hd
            simp only [pydiv, hd, bind, Except.bind, pure, Except.pure]
            exact ⟨_, rfl⟩
    obtain ⟨o, ho⟩ := hc
    rw [ho]
    cases o with
    | none => exact ⟨_, rfl⟩
    | some c => exact run c

/-- **C74** whatever the arithmetic, a polygon whose polylines are not stored (its convexity was not declared and not
asked for, or it is not convex): the only exception of `contains_point` is the TypeError of a centroid known to be None. -/
theorem C74_contains_plain [PyMath K] (eps : K) (order) (s : Polygon K) (h : Reachable eps order s)
    (hp : s.yPolylines = none) (p : Vec2 K) (e : PyErr) :
    (s.containsPoint eps (.vec p)).1 = .error e ↔ e = .typeError ∧ 4 < s.verts.length ∧ CentroidKnownNone s := by
  rw [centroidKnownNone_iff]
  obtain ⟨b, hb⟩ := C74_bounding_box eps order s h
  unfold Polygon.containsPoint
  simp only [hp]
  by_cases h3 : s.verts.length = 3
  · obtain ⟨a, ha⟩ := pnpTriangle_ok eps s h3 p
    simp [h3, ha]
  · simp only [h3, if_false]
    have hbb : s.boundingBox = (.ok b, s.boundingBox.2) := by rw [← hb]
    rw [hbb]
    cases hc : s.centroid with
    | none => simp only []; split <;> (try split) <;> simp
    | some c =>
      by_cases h4 : 4 < s.verts.length
      · have h4' : s.verts.length > 4 := h4
        cases c with
        | none => simp [h4, eq_comm]
        | some c =>
          simp only [h4', if_true]
          split
          · rename_i hh; split_ifs at hh
          · simp
          · split <;> (try split) <;> simp
      · have h4' : ¬ s.verts.length > 4 := h4
        simp only [h4', if_false]
        split <;> (try split) <;> simp [h4]

end Free

section Ordered
/- Now some values may be unordered (NaN), and nothing is assumed of the arithmetic: it may round, overflow to infinity,
underflow or produce NaN. -/
variable {K : Type} [Add K] [Sub K] [Mul K] [Div K] [Neg K] [Zero K] [One K] [BEq K] [LT K] [LE K]
  [DecidableLT K] [DecidableLE K]

/-- The comparisons of the values that are numbers (finite or infinite, not NaN) follow their places `rank` on a line.
Different values may have the same place (0.0 and -0.0). -/
structure OrderedOn {L : Type} [LinearOrder L] (num : K → Prop) (rank : K → L) : Prop where
  lt : ∀ a b, num a → num b → (a < b ↔ rank a < rank b)
  beq : ∀ a b, num a → num b → ((a == b) = true ↔ rank a = rank b)

/-- A totally ordered type has no other values. -/
theorem OrderedOn.total {K : Type} [LinearOrder K] : OrderedOn (fun _ : K => True) (id : K → K) :=
  ⟨fun _ _ _ _ => Iff.rfl, fun _ _ _ _ => by simp⟩

variable {L : Type} [LinearOrder L] {num : K → Prop} {rank : K → L} (R : OrderedOn num rank)
include R

theorem free_ptLt_iff (py : K) (yx : K × K) (h1 : num py) (h2 : num yx.1) : ptLt py yx = true ↔ rank py ≤ rank yx.1 := by
  unfold ptLt
  by_cases h : (py == yx.1) = true
  · have := (R.beq _ _ h1 h2).mp h
    simp [h, this]
  · have h' : ¬ rank py = rank yx.1 := fun h' => h ((R.beq _ _ h1 h2).mpr h')
    simp only [h, Bool.false_eq_true, if_false, decide_eq_true_eq, R.lt _ _ h1 h2]
    exact ⟨le_of_lt, fun h'' => lt_of_le_of_ne h'' h'⟩

theorem free_bisectLoop (pl : List (K × K)) (hpl : ∀ x ∈ pl, num x.1) (py : K) (hpy : num py) (lo hi : Nat) (h1 : lo ≤ hi)
    (h2 : hi ≤ pl.length) (hlo : ∀ i e, lo = i + 1 → pl[i]? = some e → rank e.1 < rank py)
    (hhi : ∀ e, pl[hi]? = some e → rank py ≤ rank e.1) :
    let r := bisectLoop pl py lo hi
    r ≤ pl.length ∧ (∀ i e, r = i + 1 → pl[i]? = some e → rank e.1 < rank py) ∧
      (∀ e, pl[r]? = some e → rank py ≤ rank e.1) := by
  induction hn : hi - lo using Nat.strong_induction_on generalizing lo hi with
  | _ n ih =>
    unfold bisectLoop
    by_cases h : lo < hi
    · simp only [h, dite_true]
      have hm : (lo + hi) / 2 < pl.length := by omega
      have hmm := hpl _ (List.getElem_mem hm)
      rw [List.getElem?_eq_getElem hm]
      simp only
      split <;> rename_i hp
      · rw [free_ptLt_iff R _ _ hpy hmm] at hp
        refine ih ((lo + hi) / 2 - lo) (by omega) lo ((lo + hi) / 2) (by omega) (by omega) hlo ?_ rfl
        intro e he
        rw [List.getElem?_eq_getElem hm] at he
        injection he with he
        rw [← he]; exact hp
      · rw [free_ptLt_iff R _ _ hpy hmm, not_le] at hp
        refine ih (hi - ((lo + hi) / 2 + 1)) (by omega) ((lo + hi) / 2 + 1) hi (by omega) h2 ?_ hhi rfl
        intro i e hi' he
        have : i = (lo + hi) / 2 := by omega
        subst this
        rw [List.getElem?_eq_getElem hm] at he
        injection he with he
        rw [← he]; exact hp
    · simp only [h, dite_false]
      have : lo = hi := by omega
      subst this
      exact ⟨h2, hlo, hhi⟩

theorem free_bisect (pl : List (K × K)) (hpl : ∀ x ∈ pl, num x.1) (py : K) (hpy : num py) :
    bisectRight pl py ≤ pl.length ∧ (∀ i e, bisectRight pl py = i + 1 → pl[i]? = some e → rank e.1 < rank py) ∧
      (∀ e, pl[bisectRight pl py]? = some e → rank py ≤ rank e.1) :=
  free_bisectLoop R pl hpl py hpy 0 pl.length (by omega) le_rfl (by intro i e h; omega) (by intro e h; simp at h)

/-- The extremes of the heights found by the loop. -/
theorem free_extremes {vs : List (Vec2 K)} (h : vs ≠ []) (hnum : ∀ v ∈ vs, num v.y) :
    (∃ v, vs[(yExtremes vs).minI]? = some v ∧ v.y = (yExtremes vs).minY) ∧
    (∃ v, vs[(yExtremes vs).maxI]? = some v ∧ v.y = (yExtremes vs).maxY) ∧
    (∀ v ∈ vs, rank (yExtremes vs).minY ≤ rank v.y ∧ rank v.y ≤ rank (yExtremes vs).maxY) := by
  obtain ⟨v0, t, rfl⟩ := List.exists_cons_of_ne_nil h
  have n0 : nth (v0 :: t) 0 = v0 := rfl
  unfold yExtremes
  simp only [n0]
  induction t using List.reverseRecOn with
  | nil =>
    have hz : (List.range [v0].length).zip [v0] = [(0, v0)] := rfl
    have hy : ¬ v0.y < v0.y := by rw [R.lt _ _ (hnum v0 (by simp)) (hnum v0 (by simp))]; exact lt_irrefl _
    rw [hz]
    simp only [List.foldl_cons, List.foldl_nil, yExtStep, gt_iff_lt, hy, if_false]
    split_ifs <;> simp
  | append_singleton t v ih =>
    have ih := ih (by simp) (fun w hw => hnum w (by
      rcases List.mem_cons.mp hw with rfl | hw <;> simp [*])) rfl
    have hz : (List.range (v0 :: (t ++ [v])).length).zip (v0 :: (t ++ [v])) =
        (List.range (v0 :: t).length).zip (v0 :: t) ++ [((v0 :: t).length, v)] := by
      have : v0 :: (t ++ [v]) = (v0 :: t) ++ [v] := rfl
      rw [this]
      rw [show ((v0 :: t) ++ [v]).length = (v0 :: t).length + 1 by simp, List.range_succ, List.zip_append (by simp)]
      rfl
    rw [hz, List.foldl_append]
    simp only [List.foldl_cons, List.foldl_nil] at ih ⊢
    generalize (((List.range (v0 :: t).length).zip (v0 :: t)).foldl yExtStep ⟨v0.y, v0.y, v0.x, v0.x, 0, 0, 0, 0⟩) = e at *
    obtain ⟨⟨a, ha, ha'⟩, ⟨b, hb, hb'⟩, hab⟩ := ih
    have ext : ∀ (i : Nat) (w : Vec2 K), (v0 :: t)[i]? = some w → (v0 :: (t ++ [v]))[i]? = some w := by
      intro i w hw
      have hi := (List.getElem?_eq_some_iff.mp hw).1
      rw [show v0 :: (t ++ [v]) = (v0 :: t) ++ [v] from rfl, List.getElem?_append_left hi]; exact hw
    have lst : (v0 :: (t ++ [v]))[(v0 :: t).length]? = some v := by
      rw [show v0 :: (t ++ [v]) = (v0 :: t) ++ [v] from rfl, List.getElem?_append_right le_rfl]; simp
    have nm : num e.minY := by rw [← ha']; exact hnum a (List.mem_of_getElem? (ext _ _ ha))
    have nM : num e.maxY := by rw [← hb']; exact hnum b (List.mem_of_getElem? (ext _ _ hb))
    have nv : num v.y := hnum v (by simp)
    have h0 := hab v0 (by simp)
    have key : (∀ f : YExt K, yExtStep e ((v0 :: t).length, v) = f →
        f.minY = (if v.y < e.minY then v.y else e.minY) ∧ f.minI = (if v.y < e.minY then (v0 :: t).length else e.minI) ∧
        f.maxY = (if v.y > e.maxY then v.y else e.maxY) ∧ f.maxI = (if v.y > e.maxY then (v0 :: t).length else e.maxI)) := by
      rintro f rfl
      unfold yExtStep
      simp only
      split_ifs <;> simp_all
    obtain ⟨k1, k2, k3, k4⟩ := key _ rfl
    rw [k1, k2, k3, k4]
    refine ⟨?_, ?_, ?_⟩
    · split_ifs
      · exact ⟨v, lst, rfl⟩
      · exact ⟨a, ext _ _ ha, ha'⟩
    · split_ifs
      · exact ⟨v, lst, rfl⟩
      · exact ⟨b, ext _ _ hb, hb'⟩
    · intro w hw
      have hw : w ∈ v0 :: t ∨ w = v := by
        rcases List.mem_cons.mp hw with rfl | hw
        · simp
        · rcases List.mem_append.mp hw with hw | hw
          · simp [hw]
          · exact Or.inr (by simpa using hw)
      have hmM := le_trans h0.1 h0.2
      rcases hw with hw | rfl
      · have := hab w hw
        split_ifs with g1 g2 g2
        · exact ⟨le_trans (le_of_lt ((R.lt _ _ nv nm).mp g1)) this.1, le_trans this.2 (le_of_lt ((R.lt _ _ nM nv).mp g2))⟩
        · exact ⟨le_trans (le_of_lt ((R.lt _ _ nv nm).mp g1)) this.1, this.2⟩
        · exact ⟨this.1, le_trans this.2 (le_of_lt ((R.lt _ _ nM nv).mp g2))⟩
        · exact this
      · split_ifs with g1 g2 g2
        · exact ⟨le_rfl, le_rfl⟩
        · exact ⟨le_rfl, not_lt.mp (fun h => g2 ((R.lt _ _ nM nv).mpr h))⟩
        · exact ⟨not_lt.mp (fun h => g1 ((R.lt _ _ nv nm).mpr h)), le_rfl⟩
        · exact ⟨not_lt.mp (fun h => g1 ((R.lt _ _ nv nm).mpr h)), not_lt.mp (fun h => g2 ((R.lt _ _ nM nv).mpr h))⟩

/-- A chain turned upward ends at the greater of its two end heights. -/
theorem upward_last {pl : List (K × K)} {a b : K × K} (ha : pl.head? = some a) (hb : pl.getLast? = some b) (na : num a.1)
    (nb : num b.1) :
    ∃ e, (upward pl).getLast? = some e ∧ rank e.1 = max (rank a.1) (rank b.1) ∧ ∀ x, x ∈ upward pl ↔ x ∈ pl := by
  unfold upward
  simp only [ha, hb]
  split_ifs with h
  · exact ⟨a, by rw [List.getLast?_reverse, ha], (max_eq_left (le_of_lt ((R.lt _ _ nb na).mp h))).symm, by simp⟩
  · exact ⟨b, hb, (max_eq_right (not_lt.mp (fun h' => h ((R.lt _ _ nb na).mpr h')))).symm, by simp⟩

/-- Both stored polylines end at a highest vertex and contain only entries of vertices. -/
theorem split_last {vs : List (Vec2 K)} (h : vs ≠ []) (hnum : ∀ v ∈ vs, num v.y) :
    ∃ M : L, ∀ pl, pl = (splitYPolylines vs).1 ∨ pl = (splitYPolylines vs).2 →
      (∃ e, pl.getLast? = some e ∧ rank e.1 = M) ∧ ∀ x ∈ pl, num x.1 ∧ rank x.1 ≤ M := by
  obtain ⟨⟨a, ha, ha'⟩, ⟨b, hb, hb'⟩, hab⟩ := free_extremes R h hnum
  refine ⟨rank (yExtremes vs).maxY, ?_⟩
  have hal := (List.getElem?_eq_some_iff.mp ha).1
  have hbl := (List.getElem?_eq_some_iff.mp hb).1
  set yx : List (K × K) := vs.map fun v => (v.y, v.x) with hyx
  have ya : yx[(yExtremes vs).minI]? = some (a.y, a.x) := by simp [hyx, ha]
  have yb : yx[(yExtremes vs).maxI]? = some (b.y, b.x) := by simp [hyx, hb]
  have mem : ∀ x ∈ yx, num x.1 ∧ rank x.1 ≤ rank (yExtremes vs).maxY := by
    intro x hx
    obtain ⟨v, hv, rfl⟩ := List.mem_map.mp hx
    exact ⟨hnum v hv, (hab v hv).2⟩
  have good : ∀ (pl : List (K × K)) (p q : K × K), pl.head? = some p → pl.getLast? = some q → (∀ x ∈ pl, x ∈ yx) →
      (p.1 = (yExtremes vs).maxY ∨ q.1 = (yExtremes vs).maxY) →
      (∃ e, (upward pl).getLast? = some e ∧ rank e.1 = rank (yExtremes vs).maxY) ∧
        ∀ x ∈ upward pl, num x.1 ∧ rank x.1 ≤ rank (yExtremes vs).maxY := by
    intro pl p q hp hq hm hM
    have hp' := mem p (hm p (List.mem_of_head? hp))
    have hq' := mem q (hm q (List.mem_of_getLast? hq))
    obtain ⟨e, e1, e2, e3⟩ := upward_last R hp hq hp'.1 hq'.1
    refine ⟨⟨e, e1, ?_⟩, fun x hx => mem x (hm x ((e3 x).mp hx))⟩
    rw [e2]
    rcases hM with hM | hM
    · rw [hM]; exact max_eq_left hq'.2
    · rw [hM]; exact max_eq_right hp'.2
  have c1 : ∀ (i j : Nat) (u w : K × K), i ≤ j → yx[i]? = some u → yx[j]? = some w →
      ((yx.take (j + 1)).drop i).head? = some u ∧ ((yx.take (j + 1)).drop i).getLast? = some w ∧
      ∀ x ∈ (yx.take (j + 1)).drop i, x ∈ yx := by
    intro i j u w hij hu hw
    have hj := (List.getElem?_eq_some_iff.mp hw).1
    refine ⟨?_, ?_, fun x hx => List.mem_of_mem_take (List.mem_of_mem_drop hx)⟩
    · rw [List.head?_drop, List.getElem?_take, if_pos (by omega)]; exact hu
    · rw [List.getLast?_drop, if_neg (by simp; omega), List.getLast?_take, if_neg (by omega)]
      simp [hw]
  have c2 : ∀ (i j : Nat) (u w : K × K), yx[i]? = some u → yx[j]? = some w →
      (yx.drop i ++ yx.take (j + 1)).head? = some u ∧ (yx.drop i ++ yx.take (j + 1)).getLast? = some w ∧
      ∀ x ∈ yx.drop i ++ yx.take (j + 1), x ∈ yx := by
    intro i j u w hu hw
    have hi := (List.getElem?_eq_some_iff.mp hu).1
    refine ⟨?_, ?_, ?_⟩
    · rw [List.head?_append, List.head?_drop, hu]; rfl
    · rw [List.getLast?_append, List.getLast?_take, if_neg (by omega)]
      simp [hw]
    · intro x hx
      rcases List.mem_append.mp hx with hx | hx
      · exact List.mem_of_mem_drop hx
      · exact List.mem_of_mem_take hx
  intro pl hpl
  unfold splitYPolylines at hpl
  simp only [← hyx] at hpl
  by_cases hlt : (yExtremes vs).minI < (yExtremes vs).maxI
  · simp only [hlt, if_true] at hpl
    obtain ⟨p1, p2, p3⟩ := c1 _ _ _ _ (le_of_lt hlt) ya yb
    obtain ⟨q1, q2, q3⟩ := c2 _ _ _ _ yb ya
    have g1 := good _ _ _ p1 p2 p3 (Or.inr hb')
    have g2 := good _ _ _ q1 q2 q3 (Or.inl hb')
    split_ifs at hpl <;> rcases hpl with rfl | rfl <;> first | exact g1 | exact g2
  · simp only [hlt, if_false] at hpl
    obtain ⟨p1, p2, p3⟩ := c1 _ _ _ _ (not_lt.mp hlt) yb ya
    obtain ⟨q1, q2, q3⟩ := c2 _ _ _ _ ya yb
    have g1 := good _ _ _ p1 p2 p3 (Or.inl hb')
    have g2 := good _ _ _ q1 q2 q3 (Or.inr hb')
    split_ifs at hpl <;> rcases hpl with rfl | rfl <;> first | exact g1 | exact g2

/-- The bisections read no entry out of range, even if the polylines are not sorted. -/
theorem pnpYMonotone_ok {vs : List (Vec2 K)} (h : vs ≠ []) (hnum : ∀ v ∈ vs, num v.y) (p : Vec2 K) (hp : num p.y) :
    ∃ b, pnpYMonotone (splitYPolylines vs) p = .ok b := by
  obtain ⟨M, hM⟩ := split_last R h hnum
  obtain ⟨⟨e, he, heM⟩, hl⟩ := hM _ (Or.inl rfl)
  obtain ⟨⟨f, hf, hfM⟩, hr⟩ := hM _ (Or.inr rfl)
  generalize hpl : splitYPolylines vs = pl at *
  unfold pnpYMonotone
  simp only
  obtain ⟨s1, s2, s3⟩ := free_bisect R pl.1 (fun x hx => (hl x hx).1) p.y hp
  obtain ⟨t1, t2, t3⟩ := free_bisect R pl.2 (fun x hx => (hr x hx).1) p.y hp
  split
  · exact ⟨_, rfl⟩
  · rename_i hi
    simp only [Bool.or_eq_true, decide_eq_true_eq, not_or] at hi
    have hi2 : bisectRight pl.1 p.y < pl.1.length := by omega
    have hpy := s3 _ (List.getElem?_eq_getElem hi2)
    have hle := le_trans hpy (hl _ (List.getElem_mem hi2)).2
    have hr0 : 0 < pl.2.length := by
      cases hh : pl.2 with
      | nil => rw [hh] at hf; simp at hf
      | cons => simp
    have hj : bisectRight pl.2 p.y < pl.2.length := by
      by_contra hj
      have hj' : bisectRight pl.2 p.y = pl.2.length := by omega
      have := t2 (pl.2.length - 1) f (by omega) (by rw [← hf, List.getLast?_eq_getElem?])
      rw [hfM] at this
      exact absurd hle (not_le.mpr this)
    obtain ⟨x1, e1⟩ := pyGet_ok pl.1 ((bisectRight pl.1 p.y : Int) - 1) (by omega) (by omega)
    obtain ⟨x2, e2⟩ := pyGet_ok pl.1 (bisectRight pl.1 p.y : Int) (by omega) (by omega)
    obtain ⟨x3, e3⟩ := pyGet_ok pl.2 ((bisectRight pl.2 p.y : Int) - 1) (by omega) (by omega)
    obtain ⟨x4, e4⟩ := pyGet_ok pl.2 (bisectRight pl.2 p.y : Int) (by omega) (by omega)
    simp only [e1, e2, e3, e4, bind, Except.bind, pure, Except.pure]
    split <;> exact ⟨_, rfl⟩

/-- **C74** whatever the arithmetic (rounding, overflow, infinities, intermediate NaNs), for every polygon object the API
can build, in every state (with wrong flags, too), of whose vertices none is at height NaN: `contains_point` of a point
object that is not at height NaN raises nothing but the TypeError of a polygon of more than four vertices whose centroid
is known to be None. (Partial: that exception is itself undocumented, see `C74_centroid_violated`, and NaN is left out,
see `C74_nan_violated`.) -/
theorem C74_contains_partial [PyMath K] (eps : K) (order) (s : Polygon K) (h : Reachable eps order s)
    (hnum : ∀ v ∈ s.verts, num v.y) (p : Vec2 K) (hpn : num p.y) (e : PyErr) :
    (s.containsPoint eps (.vec p)).1 = .error e ↔ e = .typeError ∧ 4 < s.verts.length ∧ CentroidKnownNone s := by
  cases hp : s.yPolylines with
  | none => exact C74_contains_plain eps order s h hp p e
  | some pls =>
    have hS := Sound.reachable h
    have hpls := hS.ypl pls hp
    have hne : s.verts ≠ [] := by intro h0; have := hS.long; rw [h0] at this; simp at this
    obtain ⟨b, hb⟩ := pnpYMonotone_ok R hne hnum p hpn
    rw [← hpls] at hb
    rw [centroidKnownNone_iff]
    unfold Polygon.containsPoint
    simp only [hp]
    by_cases h3 : s.verts.length = 3
    · obtain ⟨a, ha⟩ := pnpTriangle_ok eps s h3 p
      simp [h3, ha]
    · simp only [h3, if_false]
      have hb' : pnpYMonotone pls (PyPoint.vec p).toVec = .ok b := hb
      cases hc : s.centroid with
      | none => simp [hb']
      | some c =>
        by_cases h4 : 4 < s.verts.length
        · have h4' : s.verts.length > 4 := h4
          cases c with
          | none => simp [h4, eq_comm]
          | some c =>
            simp only [h4', if_true]
            split
            · rename_i hh; split_ifs at hh
            · simp
            · simp [hb']
        · have h4' : ¬ s.verts.length > 4 := h4
          simp [h4, hb']

end Ordered
end Planar
