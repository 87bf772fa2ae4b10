import Verif.Lemmas.PolyState
import Verif.Spec.Reachable
import Verif.Model.Hull
import Verif.Model.Tangents
import Verif.Model.Dispatch
import Verif.Props.Winding
/- Properties C43, C44, C56, and the polygon part of C19 and C27. -/
set_option linter.unusedSectionVars false
namespace Planar
open Spec Polygon
variable {K : Type} [LinearOrder K] [Add K] [Sub K] [Mul K] [Div K] [Neg K] [Zero K] [One K] [RoundedArith K]

/-! ### C43 -/

theorem boundingBox_verts (s : Polygon K) : s.boundingBox.2.verts = s.verts := by
  unfold boundingBox
  split
  · rfl
  · split <;> rfl

theorem classify_verts (s : Polygon K) : s.classify.verts = s.verts := by rw [classify_eq]

theorem isConvex_verts (s : Polygon K) : s.isConvex.2.verts = s.verts := by
  cases h : s.convex with
  | some b => rw [isConvex_known h]
  | none => rw [isConvex_unknown h]; exact classify_verts s

theorem isSimple_verts (s : Polygon K) : s.isSimple.2.verts = s.verts := by
  have key : ∀ s : Polygon K, ∀ b, s.convex = some b → s.isSimple.2.verts = s.verts := by
    intro s b hc
    cases h : s.simple with
    | some b => rw [isSimple_known h]
    | none => rw [isSimple_check h hc]
  cases h : s.simple with
  | some b => rw [isSimple_known h]
  | none =>
    cases hc : s.convex with
    | some b => exact key s b hc
    | none =>
      rw [isSimple_unknown h hc, key _ (cv s.verts) (by rw [classify_eq]), classify_verts]

theorem getCentroid_verts (s : Polygon K) : s.getCentroid.2.verts = s.verts := by
  unfold getCentroid
  split
  · rfl
  · simp only
    split
    · split <;> exact isSimple_verts s
    · exact isSimple_verts s

theorem containsPoint_verts (eps : K) (s : Polygon K) (p : PyPoint K) : (s.containsPoint eps p).2.verts = s.verts := by
  unfold containsPoint
  simp only
  split
  · unfold pnpTriangle
    split
    · rfl
    · split <;> rfl
  · split
    · rfl
    · rfl
    · split
      · rfl
      · split
        · rfl
        · have hb := boundingBox_verts s
          split
          · rename_i heq; rw [heq] at hb; exact hb
          · rename_i heq; rw [heq] at hb
            split <;> exact hb

theorem tangentsToPoint_verts (s : Polygon K) (p : Vec2 K) : (s.tangentsToPoint p).2.verts = s.verts := by
  unfold tangentsToPoint
  split
  · simp only
    split <;> exact isConvex_verts s
  · rfl

/-- Whatever the state of the polygon, no operation changes the number of vertices. -/
theorem run_length (eps : K) (s : Polygon K) (op : PolyOp K) : (op.run eps s).verts.length = s.verts.length := by
  cases op with
  | setItem i v =>
    unfold PolyOp.run setItem pySet
    simp only
    cases pyIndex s.verts.length i with
    | none => rfl
    | some k => simp [clearCached, cleared]
  | imul T => simp [PolyOp.run, imul_verts]
  | isConvex => exact congrArg _ (isConvex_verts s)
  | isSimple => exact congrArg _ (isSimple_verts s)
  | centroid => exact congrArg _ (getCentroid_verts s)
  | boundingBox => exact congrArg _ (boundingBox_verts s)
  | contains p => exact congrArg _ (containsPoint_verts eps s p)
  | tangents p => exact congrArg _ (tangentsToPoint_verts s p)

theorem map_copy' (vs : List (Vec2 K)) : vs.map Vec2.copy = vs := by
  conv_rhs => rw [← List.map_id vs]
  apply List.map_congr_left; intro v _; exact Vec2.copy_fl v

/-- The attributes of a new polygon. -/
theorem new_eq (vs : List (Vec2 K)) (c m : Option Bool) (h : 3 ≤ vs.length) :
    Polygon.new vs c m = .ok { cleared vs none with
      convex := if 3 < vs.length then c else some true
      simple := if 3 < vs.length then (if c = some true then some true else m) else some true
      yPolylines := if 3 < vs.length ∧ c = some true then some (splitYPolylines vs) else none } := by
  unfold Polygon.new
  simp only [map_copy', show ¬ vs.length < 3 by omega, if_false]
  by_cases h3 : 3 < vs.length
  · have h3' : (vs.length > 3) = True := by simpa using h3
    rcases c with _ | _ | _ <;> rcases m with _ | m <;> simp [cleared, h3]
  · rcases c with _ | _ | _ <;> rcases m with _ | m <;> simp [cleared, h3]

theorem new_verts {vs : List (Vec2 K)} {c m : Option Bool} {s : Polygon K} (h : Polygon.new vs c m = .ok s) :
    s.verts = vs ∧ 3 ≤ vs.length := by
  by_cases h3 : vs.length < 3
  · unfold Polygon.new at h
    simp only [map_copy', h3, if_true] at h
    simp at h
  · have h3 : 3 ≤ vs.length := by omega
    rw [new_eq vs c m h3] at h
    injection h with h
    exact ⟨by rw [← h]; rfl, h3⟩

/-- **C43** `Polygon(vertices, ...)` raises ValueError for fewer than three vertices and otherwise has exactly the given
vertices, in order. -/
theorem C43_new (vs : List (Vec2 K)) (c m : Option Bool) :
    (vs.length < 3 → Polygon.new vs c m = .error .valueError) ∧
    (3 ≤ vs.length → ∃ s, Polygon.new vs c m = .ok s ∧ s.verts = vs) := by
  constructor
  · intro h
    unfold Polygon.new
    simp only [map_copy', h, if_true]
  · intro h
    exact ⟨_, new_eq vs c m h, rfl⟩

theorem regular_new [PyMath K] {n : Int} {r : K} {c : Vec2 K} {a : K} {s : Polygon K}
    (h : Polygon.regular n r c a = .ok s) :
    ∃ vs q, Polygon.new vs (some true) none = .ok q ∧ s.verts = q.verts := by
  unfold Polygon.regular at h
  cases hs : pydiv (PyMath.ofInt 360 : K) (PyMath.ofInt n) with
  | error e => rw [hs] at h; simp [bind, Except.bind] at h
  | ok step =>
    rw [hs] at h
    simp only [bind, Except.bind] at h
    cases hn : Polygon.new (regularVerts step r c n.toNat a) (some true) none with
    | error e => rw [hn] at h; simp at h
    | ok q =>
      rw [hn] at h
      simp only [pure, Except.pure, Except.ok.injEq] at h
      exact ⟨_, q, hn, by rw [← h]⟩

theorem star_new [PyMath K] {n : Int} {r1 r2 : K} {c : Vec2 K} {a : K} {s : Polygon K}
    (h : Polygon.star n r1 r2 c a = .ok s) :
    ∃ vs x y q, Polygon.new vs x y = .ok q ∧ s.verts = q.verts := by
  unfold Polygon.star at h
  split at h
  · simp at h
  · cases hs : pydiv (PyMath.ofInt 180 : K) (PyMath.ofInt n) with
    | error e => rw [hs] at h; simp [bind, Except.bind] at h
    | ok step =>
      rw [hs] at h
      simp only [bind, Except.bind] at h
      split at h
      · simp at h
      · rename_i q hn
        simp only [pure, Except.pure, Except.ok.injEq] at h
        refine ⟨_, _, _, q, hn, ?_⟩
        rw [← h]
        split <;> split <;> split <;> rfl

/-- **C43** every polygon reachable without slice assignment and `from_points` of fewer than three points has at least
three vertices. (Partial: those two break it, see `C43_violated`.) -/
theorem C43_reachable_partial [PyMath K] (eps : K) (order : List (Vec2 K) → List (Vec2 K)) (s : Polygon K)
    (h : Reachable eps order s) : 3 ≤ s.verts.length := by
  induction h with
  | new vs c m s h => rw [(new_verts h).1]; exact (new_verts h).2
  | points vs h => exact h
  | regular n r c a s h =>
    obtain ⟨vs, q, hq, e⟩ := regular_new h
    rw [e, (new_verts hq).1]; exact (new_verts hq).2
  | star n r1 r2 c a s h =>
    obtain ⟨vs, x, y, q, hq, e⟩ := star_new h
    rw [e, (new_verts hq).1]; exact (new_verts hq).2
  | hull ps s h =>
    unfold Hull.convexHull at h
    cases hh : Hull.quickHull order ps with
    | error e => rw [hh] at h; simp [bind, Except.bind] at h
    | ok vs =>
      rw [hh] at h
      simp only [bind, Except.bind] at h
      rw [(new_verts h).1]; exact (new_verts h).2
  | hullPoly t s ht h ih =>
    unfold Hull.convexHullPoly at h
    split at h
    · injection h with h; rw [← h]; exact ih
    · unfold Hull.convexHull at h
      cases hh : Hull.quickHull order t.verts with
      | error e => rw [hh] at h; simp [bind, Except.bind] at h
      | ok vs =>
        rw [hh] at h
        simp only [bind, Except.bind] at h
        rw [(new_verts h).1]; exact (new_verts h).2
  | box b s h =>
    unfold Box.toPolygon at h
    rw [(new_verts h).1]; simp
  | boxMul b T s h =>
    unfold Box.mulT at h
    split at h
    · cases hf : Box.fromPoints [T.apply b.min, T.apply b.max] with
      | error e => rw [hf] at h; simp [bind, Except.bind] at h
      | ok r => rw [hf] at h; simp [bind, Except.bind, pure, Except.pure] at h
    · cases hf : b.toPolygon with
      | error e => rw [hf] at h; simp [bind, Except.bind] at h
      | ok q =>
        rw [hf] at h
        simp only [bind, Except.bind, pure, Except.pure, Except.ok.injEq, Shape.poly.injEq] at h
        unfold Box.toPolygon at hf
        rw [← h, imul_verts, List.length_map, (new_verts hf).1]; simp
  | fit b t s ht h ih =>
    unfold Box.fitPolygon at h
    have hv := boundingBox_verts t
    split at h
    · simp at h
    · rename_i heq
      rw [heq] at hv
      split at h
      · simp at h
      · simp only [Except.ok.injEq] at h
        rw [← h]
        simp only [Polygon.transformed, Polygon.fromPoints, Polygon.cleared, Affine.applyPts, List.length_map]
        rw [show _ = t.verts from hv]; exact ih
  | transformed s hs T ih => simpa [Polygon.transformed, Polygon.fromPoints, Polygon.cleared, Affine.applyPts] using ih
  | copy s hs ih => exact ih
  | deepcopy s hs ih => exact ih
  | op s hs o ih => rw [run_length]; exact ih

/-- **C43** no operation of a history changes the number of vertices, whatever the polygon. -/
theorem C43_length (eps : K) (s : Polygon K) (ops : List (PolyOp K)) :
    (s.after eps ops).verts.length = s.verts.length := by
  induction ops generalizing s with
  | nil => rfl
  | cons op ops ih => exact (ih _).trans (run_length eps s op)

/-- **C43** is violated: `from_points` builds polygons with any number of vertices, and assigning to a slice changes
their number. -/
theorem C43_violated : (∃ s : Polygon ℚ, s = Polygon.fromPoints [⟨0, 0⟩, ⟨1, 0⟩] ∧ s.verts.length < 3) ∧
    ∃ s : List (Cell ℚ), s = [.vec ⟨0, 0⟩, .vec ⟨1, 0⟩, .vec ⟨1, 1⟩, .vec ⟨0, 1⟩] ∧
      (seq2SetSlice s none none ⟨5, 6⟩).length = 2 := by
  refine ⟨⟨_, rfl, by decide⟩, ⟨_, rfl, ?_⟩⟩
  rfl

example : ∃ s, Polygon.new [⟨0, 0⟩, ⟨1, 0⟩, (⟨0, 1⟩ : Vec2 ℚ)] none none = .ok s ∧ s.verts.length = 3 :=
  ⟨_, rfl, rfl⟩

/-! ### C44 -/

/-- **C44** a polygon built without declared flags: after any history of vertex assignments, in-place transforms,
property reads and queries, each property has the value a fresh polygon with the current vertices would report. -/
theorem C44_fresh (eps : K) (vs : List (Vec2 K)) (ops : List (PolyOp K)) :
    let s := (Polygon.fromPoints vs).after eps ops
    let f := Polygon.fromPoints s.verts
    s.isConvex.1 = f.isConvex.1 ∧ s.isSimple.1 = f.isSimple.1 ∧ s.getCentroid.1 = f.getCentroid.1 ∧
    s.boundingBox.1 = f.boundingBox.1 ∧ ∀ p, (s.tangentsToPoint p).1 = (f.tangentsToPoint p).1 := by
  intro s f
  have hs : Inv eps s := (inv_after (inv_fromPoints eps vs) ops).1
  have hf : Inv eps f := inv_fromPoints eps s.verts
  refine ⟨(inv_isConvex hs).1.trans (inv_isConvex hf).1.symm, (inv_isSimple hs).1.trans (inv_isSimple hf).1.symm,
    (inv_getCentroid hs).1.trans (inv_getCentroid hf).1.symm,
    (inv_boundingBox hs).1.trans (inv_boundingBox hf).1.symm, fun p => (inv_tangents hs p).2.2⟩

/-- **C44** the same for a polygon from the constructor. -/
theorem C44_fresh_new (eps : K) (vs : List (Vec2 K)) (h : 3 ≤ vs.length) : Polygon.new vs = .ok (Polygon.fromPoints vs) := by
  unfold Polygon.new
  simp only [map_copy', show ¬ vs.length < 3 by omega, if_false]
  rfl

/-- **C44** reading a property a second time, with any reads and queries in between, gives the same answer. -/
theorem C44_reread (eps : K) (vs : List (Vec2 K)) (ops reads : List (PolyOp K)) (hr : ∀ op ∈ reads, op.isRead = true) :
    let s := (Polygon.fromPoints vs).after eps ops
    let t := s.after eps reads
    t.verts = s.verts ∧ t.isConvex.1 = s.isConvex.1 ∧ t.isSimple.1 = s.isSimple.1 ∧ t.getCentroid.1 = s.getCentroid.1 ∧
    t.boundingBox.1 = s.boundingBox.1 ∧ ∀ p, (t.tangentsToPoint p).1 = (s.tangentsToPoint p).1 := by
  intro s t
  have hs : Inv eps s := (inv_after (inv_fromPoints eps vs) ops).1
  have ht := inv_after hs reads
  have hv : t.verts = s.verts := ht.2.2 hr
  refine ⟨hv, ?_, ?_, ?_, ?_, ?_⟩
  · rw [(inv_isConvex ht.1).1, (inv_isConvex hs).1]; exact congrArg _ hv
  · rw [(inv_isSimple ht.1).1, (inv_isSimple hs).1]; exact congrArg _ hv
  · rw [(inv_getCentroid ht.1).1, (inv_getCentroid hs).1]; exact congrArg _ hv
  · rw [(inv_boundingBox ht.1).1, (inv_boundingBox hs).1]; exact congrArg _ hv
  · intro p; rw [(inv_tangents ht.1 p).2.2, (inv_tangents hs p).2.2]; exact congrArg (fun v => ((fromPoints v).tangentsToPoint p).1) hv

/-- A history that makes a convex square non-convex and back: the answers follow. -/
example : let sq : List (Vec2 ℚ) := [⟨0, 0⟩, ⟨4, 0⟩, ⟨4, 4⟩, ⟨0, 4⟩]
    let s := (Polygon.fromPoints sq).after (1/1000) [.isConvex, .setItem 2 ⟨1, 1⟩]
    (Polygon.fromPoints sq).isConvex.1 = true ∧ s.isConvex.1 = false ∧
      (s.after (1/1000) [.isSimple, .setItem (-2) ⟨4, 4⟩]).isConvex.1 = true := by
  decide +kernel

/-! ### C19, polygons -/

/-- **C19** (Polygon) `poly *= T` leaves at each index the transform of the old vertex, and every attribute as in the
polygon `T * poly`: the in-place and the copying transform agree in everything observable. -/
theorem C19_polygon (eps : K) (vs : List (Vec2 K)) (ops : List (PolyOp K)) (T : Affine K) :
    let s := (Polygon.fromPoints vs).after eps ops
    s.imul T = s.transformed T ∧ (s.imul T).verts = s.verts.map T.apply := by
  intro s
  have hs : Inv eps s := (inv_after (inv_fromPoints eps vs) ops).1
  refine ⟨?_, imul_verts s T⟩
  rw [imul_eq_cleared]
  unfold transformed fromPoints
  have : s.verts.map T.apply = T.applyPts s.verts := rfl
  rw [this]
  congr 1
  by_cases h3 : 3 < s.verts.length
  · simp only [h3, if_true]; exact hs.tri_long h3
  · simp [h3]

/-! ### C27, general transforms -/

/-- **C27** the image of a box under a transform that is not rectilinear is the polygon of the four transformed corners,
with nothing cached. -/
theorem C27_polygon (eps : K) (b : Box K) (T : Affine K) (hT : T.isRectilinear eps = false) :
    b.mulT eps T = .ok (.poly (Polygon.fromPoints
      [T.apply b.min, T.apply ⟨b.min.x, b.max.y⟩, T.apply b.max, T.apply ⟨b.max.x, b.min.y⟩])) := by
  unfold Box.mulT
  simp only [hT, Bool.false_eq_true, if_false]
  obtain ⟨q, hq, hv⟩ := (C43_new [b.min, ⟨b.min.x, b.max.y⟩, b.max, ⟨b.max.x, b.min.y⟩] (some true) none).2 (by simp)
  have : b.toPolygon = .ok q := hq
  rw [this]
  simp only [bind, Except.bind, pure, Except.pure, Except.ok.injEq, Shape.poly.injEq]
  rw [imul_eq_cleared, hv]
  have ht : q.triTest = none := by
    have h' := hq
    rw [new_eq _ _ _ (by simp)] at h'
    injection h' with h'
    rw [← h']
    simp [cleared]
  simp [ht, fromPoints]

/-- A rotated unit box. -/
example : (⟨3/5, 4/5, 0, -4/5, 3/5, 0⟩ : Affine ℚ).isRectilinear (1/1000) = false := by decide +kernel

/-! ### C56 -/

theorem eq_of_verts {s o : Polygon K} (h : s.verts = o.verts) : s.eq o = true := by
  have hz : (s.verts.zip o.verts).all (fun ab => ab.1 == ab.2) = true := by
    rw [h, List.all_eq_true]
    intro ab hab
    have : ab.1 = ab.2 := by
      obtain ⟨i, hi, e⟩ := List.mem_iff_getElem.mp hab
      rw [List.getElem_zip] at e
      rw [← e]
    rw [this]; exact beq_self_eq_true _
  unfold Polygon.eq
  simp only [h, bne_self_eq_false, Bool.false_eq_true, if_false]
  rw [h] at hz
  rw [if_pos hz]

/-- The box cached in any state reached from a constructor or `from_points` is the box of the current vertices, and a
cached triangle test belongs to the current vertices. -/
structure PCoherent (eps : K) (s : Polygon K) : Prop where
  bbox : ∀ b, s.bbox = some b → Box.fromPoints s.verts = .ok b
  tri : ∀ c, s.triTest = some c → s.verts.length = 3 ∧ triangleClosure eps s.verts = .ok (some c)

theorem pcoherent_cleared (eps : K) (vs : List (Vec2 K)) (t : Option (TriClosure K)) (ht : 3 < vs.length → t = none) :
    PCoherent eps (cleared vs t) := ⟨(inv_cleared eps vs t ht).bbox, (inv_cleared eps vs t ht).tri⟩

theorem PCoherent.of_eq {eps : K} {s t : Polygon K} (h : PCoherent eps s) (h1 : t.verts = s.verts) (h2 : t.bbox = s.bbox)
    (h3 : t.triTest = s.triTest) : PCoherent eps t :=
  ⟨fun b hb => by rw [h1]; exact h.bbox b (h2 ▸ hb), fun c hc => by rw [h1]; exact h.tri c (h3 ▸ hc)⟩

theorem pcoherent_isConvex {eps : K} {s : Polygon K} (h : PCoherent eps s) : PCoherent eps s.isConvex.2 := by
  cases hc : s.convex with
  | some b => rw [isConvex_known hc]; exact h
  | none => rw [isConvex_unknown hc]; exact h.of_eq (by rw [classify_eq]) (by rw [classify_eq]) (by rw [classify_eq])

theorem pcoherent_isSimple {eps : K} {s : Polygon K} (h : PCoherent eps s) : PCoherent eps s.isSimple.2 := by
  have key : ∀ s : Polygon K, PCoherent eps s → ∀ b, s.convex = some b → PCoherent eps s.isSimple.2 := by
    intro s h b hc
    cases hs : s.simple with
    | some b => rw [isSimple_known hs]; exact h
    | none => rw [isSimple_check hs hc]; exact h.of_eq rfl rfl rfl
  cases hs : s.simple with
  | some b => rw [isSimple_known hs]; exact h
  | none =>
    cases hc : s.convex with
    | some b => exact key s h b hc
    | none =>
      rw [isSimple_unknown hs hc]
      exact key _ (h.of_eq (by rw [classify_eq]) (by rw [classify_eq]) (by rw [classify_eq])) (cv s.verts) (by rw [classify_eq])

theorem pcoherent_boundingBox {eps : K} {s : Polygon K} (h : PCoherent eps s) :
    PCoherent eps s.boundingBox.2 ∧ s.boundingBox.1 = Box.fromPoints s.verts := by
  unfold boundingBox
  cases hb : s.bbox with
  | some b => exact ⟨h, (h.bbox b hb).symm⟩
  | none =>
    simp only
    cases hf : Box.fromPoints s.verts with
    | error e => exact ⟨h, rfl⟩
    | ok b =>
      refine ⟨⟨?_, h.tri⟩, rfl⟩
      intro b' hb'
      simp only [Option.some.injEq] at hb'
      subst hb'
      simpa using hf

theorem pcoherent_run {eps : K} {s : Polygon K} (h : PCoherent eps s) (op : PolyOp K) : PCoherent eps (op.run eps s) := by
  have hlong : 3 < s.verts.length → s.triTest = none := by
    intro h3
    cases ht : s.triTest with
    | none => rfl
    | some c => have := (h.tri c ht).1; omega
  cases op with
  | setItem i v =>
    unfold PolyOp.run setItem pySet
    simp only
    cases pyIndex s.verts.length i with
    | none => exact h
    | some k => exact pcoherent_cleared eps _ _ (by simpa using hlong)
  | imul T =>
    change PCoherent eps (s.imul T)
    rw [imul_eq_cleared]
    apply pcoherent_cleared
    intro h3
    have h3 : 3 < s.verts.length := by simpa using h3
    simp only [h3, if_true]; exact hlong h3
  | isConvex => exact pcoherent_isConvex h
  | isSimple => exact pcoherent_isSimple h
  | centroid =>
    change PCoherent eps s.getCentroid.2
    unfold getCentroid
    have h' := pcoherent_isSimple h
    split
    · exact h
    · simp only
      split
      · split
        · exact h'
        · exact h'.of_eq rfl rfl rfl
      · exact h'.of_eq rfl rfl rfl
  | boundingBox => exact (pcoherent_boundingBox h).1
  | contains p =>
    change PCoherent eps (s.containsPoint eps p).2
    unfold containsPoint
    simp only
    split
    · rename_i h3
      unfold pnpTriangle
      split
      · exact h
      · split
        · exact h
        · exact h
        · rename_i c hc
          exact ⟨h.bbox, fun c' hc' => by
            simp only [Option.some.injEq] at hc'
            subst hc'
            exact ⟨h3, hc⟩⟩
    · split
      · exact h
      · exact h
      · split
        · exact h
        · split
          · exact h
          · have hb := (pcoherent_boundingBox h).1
            split
            · rename_i heq; rw [heq] at hb; exact hb
            · rename_i heq; rw [heq] at hb
              split <;> exact hb
  | tangents p =>
    change PCoherent eps (s.tangentsToPoint p).2
    unfold tangentsToPoint
    split
    · simp only
      split <;> exact pcoherent_isConvex h
    · exact h

theorem pcoherent_after {eps : K} {s : Polygon K} (h : PCoherent eps s) (ops : List (PolyOp K)) :
    PCoherent eps (s.after eps ops) := by
  induction ops generalizing s with
  | nil => exact h
  | cons op ops ih => exact ih (pcoherent_run h op)

theorem pcoherent_new {eps : K} {vs : List (Vec2 K)} {c m : Option Bool} {s : Polygon K} (h : Polygon.new vs c m = .ok s) :
    PCoherent eps s := by
  rw [new_eq vs c m (new_verts h).2] at h
  injection h with h
  rw [← h]
  have h0 : PCoherent eps (cleared vs none) := pcoherent_cleared eps vs none fun _ => rfl
  exact h0.of_eq rfl rfl rfl

/-- **C56** a copy and a deep copy compare equal to the original, whatever state it is in. -/
theorem C56_equal (s : Polygon K) :
    s.copy.eq s = true ∧ s.deepcopy.eq s = true ∧ s.eq s.copy = true ∧ s.eq s.deepcopy = true :=
  ⟨eq_of_verts rfl, eq_of_verts rfl, eq_of_verts rfl, eq_of_verts rfl⟩

theorem copy_isSimple (s t : Polygon K) (h1 : t.verts = s.verts) (h2 : t.convex = s.convex) (h3 : t.simple = s.simple) :
    t.isConvex.1 = s.isConvex.1 ∧ t.isSimple.1 = s.isSimple.1 ∧ t.isSimple.2.verts = s.isSimple.2.verts := by
  refine ⟨?_, ?_, by rw [isSimple_verts, isSimple_verts, h1]⟩
  · cases hc : s.convex with
    | some b => rw [isConvex_known hc, isConvex_known (h2.trans hc)]
    | none =>
      rw [isConvex_unknown hc, isConvex_unknown (h2.trans hc), classify_eq, classify_eq]; simp [h1]
  · cases hs : s.simple with
    | some b => rw [isSimple_known hs, isSimple_known (h3.trans hs)]
    | none =>
      cases hc : s.convex with
      | some b => rw [isSimple_check hs hc, isSimple_check (h3.trans hs) (h2.trans hc), h1]
      | none =>
        rw [isSimple_unknown hs hc, isSimple_unknown (h3.trans hs) (h2.trans hc), classify_eq, classify_eq, h1]
        by_cases hcv : cv s.verts = true
        · rw [isSimple_known (b := true) (by simp [hcv]), isSimple_known (b := true) (by simp [hcv])]
        · rw [isSimple_check (by simp [hcv]) rfl, isSimple_check (by simp [hcv]) rfl]

theorem copy_getCentroid (s t : Polygon K) (h1 : t.verts = s.verts) (h2 : t.convex = s.convex) (h3 : t.simple = s.simple)
    (h4 : t.centroid = s.centroid) : t.getCentroid.1 = s.getCentroid.1 := by
  have h := copy_isSimple s t h1 h2 h3
  unfold getCentroid
  rw [h4]
  cases s.centroid with
  | some c => rfl
  | none =>
    simp only
    rw [h.2.1]
    split
    · rw [isSimple_verts, isSimple_verts, h1]
      split <;> rfl
    · rfl

/-- **C56** whatever flags were declared and whatever was done with the original before, a copy and a deep copy answer
every property as the original, and a copy also every containment query. -/
theorem C56_answers (eps : K) (vs : List (Vec2 K)) (c m : Option Bool) (s0 : Polygon K) (h0 : Polygon.new vs c m = .ok s0)
    (ops : List (PolyOp K)) :
    let s := s0.after eps ops
    (s.copy.verts = s.verts ∧ s.copy.isConvex.1 = s.isConvex.1 ∧ s.copy.isSimple.1 = s.isSimple.1 ∧
      s.copy.getCentroid.1 = s.getCentroid.1 ∧ s.copy.boundingBox.1 = s.boundingBox.1 ∧
      ∀ p, (s.copy.containsPoint eps p).1 = (s.containsPoint eps p).1) ∧
    (s.deepcopy.verts = s.verts ∧ s.deepcopy.isConvex.1 = s.isConvex.1 ∧ s.deepcopy.isSimple.1 = s.isSimple.1 ∧
      s.deepcopy.getCentroid.1 = s.getCentroid.1 ∧ s.deepcopy.boundingBox.1 = s.boundingBox.1) := by
  intro s
  have hs : PCoherent eps s := pcoherent_after (pcoherent_new h0) ops
  have hcopy : PCoherent eps s.copy := ⟨hs.bbox, fun c hc => by simp [copy, fromPoints, cleared] at hc⟩
  have hdeep : PCoherent eps s.deepcopy :=
    ⟨fun b hb => by simp [deepcopy] at hb, fun c hc => by simp [deepcopy, copy, fromPoints, cleared] at hc⟩
  have e1 := copy_isSimple s s.copy rfl rfl rfl
  have e2 := copy_isSimple s s.deepcopy rfl rfl rfl
  refine ⟨⟨rfl, e1.1, e1.2.1, copy_getCentroid s _ rfl rfl rfl rfl, ?_, ?_⟩,
    ⟨rfl, e2.1, e2.2.1, copy_getCentroid s _ rfl rfl rfl rfl, ?_⟩⟩
  · rw [(pcoherent_boundingBox hcopy).2, (pcoherent_boundingBox hs).2]; rfl
  · intro p
    have hv : s.copy.verts = s.verts := rfl
    have hct : s.copy.triTest = none := by simp [copy, fromPoints, cleared]
    have hb : s.copy.boundingBox.1 = s.boundingBox.1 := by
      rw [(pcoherent_boundingBox hcopy).2, (pcoherent_boundingBox hs).2]; rfl
    unfold containsPoint
    rw [hv]
    by_cases h3 : s.verts.length = 3
    · simp only [h3, if_true]
      unfold pnpTriangle
      rw [hct]
      simp only
      cases ht : s.triTest with
      | some c =>
        simp only
        rw [hv, (hs.tri c ht).2]
      | none =>
        simp only [hv]
        cases triangleClosure eps s.verts with
        | error e => rfl
        | ok o => cases o <;> rfl
    · simp only [h3, if_false]
      have e1 : s.copy.centroid = s.centroid := rfl
      have e2 : s.copy.minR2 = s.minR2 := rfl
      have e3 : s.copy.maxR2 = s.maxR2 := rfl
      have e4 : s.copy.yPolylines = s.yPolylines := rfl
      rw [e1, e2, e3]
      split
      · rfl
      · rfl
      · rw [e4]
        split
        · rfl
        · split
          · rfl
          · have hb1 := boundingBox_verts s
            have hb2 := boundingBox_verts s.copy
            rcases hx : s.copy.boundingBox with ⟨r1, t1⟩
            rcases hy : s.boundingBox with ⟨r2, t2⟩
            rw [hx] at hb hb2
            rw [hy] at hb hb1
            simp only at hb hb1 hb2
            subst hb
            cases r1 with
            | error e => rfl
            | ok b =>
              simp only [hb1, hb2, hv]
              split <;> rfl
  · rw [(pcoherent_boundingBox hdeep).2, (pcoherent_boundingBox hs).2]; rfl

/-- **C56** a copy and a deep copy answer `tangents_to_point` as the original, whatever state it is in. -/
theorem C56_tangents (s : Polygon K) (p : Vec2 K) :
    (s.copy.tangentsToPoint p).1 = (s.tangentsToPoint p).1 ∧
    (s.deepcopy.tangentsToPoint p).1 = (s.tangentsToPoint p).1 := by
  have key : ∀ t : Polygon K, t.verts = s.verts → t.convex = s.convex → t.dupeVerts = s.dupeVerts →
      (t.tangentsToPoint p).1 = (s.tangentsToPoint p).1 := by
    intro t h1 h2 h3
    unfold tangentsToPoint
    rw [h1]
    split
    · cases hc : s.convex with
      | some b =>
        rw [isConvex_known hc, isConvex_known (h2.trans hc)]
        simp only [h3, h1]
        split <;> rfl
      | none =>
        rw [isConvex_unknown hc, isConvex_unknown (h2.trans hc), classify_eq, classify_eq]
        simp only [h3, h1]
        rw [apply_ite Prod.fst, apply_ite Prod.fst]
    · rfl
  exact ⟨key _ rfl rfl rfl, key _ rfl rfl rfl⟩

/-- The operations of a program that act on object `j`. -/
def Heap.opsOn (j : Nat) (ops : List (Heap.Op K)) : List (PolyOp K) :=
  ops.filterMap fun
    | .on i op => if i = j then some op else none
    | _ => none

/-- No two polygon objects share a list of vertices, and every list address exists. -/
structure Heap.Separate (h : Heap K) : Prop where
  bound : ∀ (i r : Nat) (c : Polygon K), h.objs[i]? = some (r, c) → r < h.lists.length
  inj : ∀ (i j r : Nat) (c d : Polygon K), h.objs[i]? = some (r, c) → h.objs[j]? = some (r, d) → i = j

theorem Heap.separate_alloc {h : Heap K} (hs : h.Separate) (s : Polygon K) : (h.alloc s).Separate := by
  constructor
  · intro i r c hi
    simp only [alloc, List.length_append, List.length_singleton] at hi ⊢
    rw [List.getElem?_append] at hi
    split at hi
    · have := hs.bound i r c hi; omega
    · rename_i hlt
      by_cases h0 : i - h.objs.length = 0
      · simp [h0] at hi; omega
      · rw [List.getElem?_eq_none (by simp; omega)] at hi; simp at hi
  · intro i j r c d hi hj
    simp only [alloc] at hi hj
    rw [List.getElem?_append] at hi hj
    have last : ∀ k x, [(h.lists.length, s)][k]? = some x → k = 0 ∧ x = (h.lists.length, s) := by
      intro k x hk
      cases k with
      | zero => simpa using hk.symm
      | succ k => simp at hk
    split at hi <;> split at hj
    · exact hs.inj i j r c d hi hj
    · have h1 := hs.bound i r c hi
      obtain ⟨_, h2⟩ := last _ _ hj
      simp only [Prod.mk.injEq] at h2; omega
    · have h1 := hs.bound j r d hj
      obtain ⟨_, h2⟩ := last _ _ hi
      simp only [Prod.mk.injEq] at h2; omega
    · obtain ⟨h1, _⟩ := last _ _ hi
      obtain ⟨h2, _⟩ := last _ _ hj
      omega

theorem Heap.view_alloc {h : Heap K} (hs : h.Separate) (s : Polygon K) :
    (∀ j, j < h.objs.length → (h.alloc s).view j = h.view j) ∧ (h.alloc s).view h.objs.length = some s := by
  constructor
  · intro j hj
    unfold view alloc
    simp only
    rw [List.getElem?_append_left hj]
    cases ho : h.objs[j]? with
    | none => rfl
    | some rc =>
      obtain ⟨r, c⟩ := rc
      simp only
      rw [List.getElem?_append_left (hs.bound j r c ho)]
  · unfold view alloc
    simp

theorem Heap.step_on {eps : K} {h : Heap K} (hs : h.Separate) (i : Nat) (op : PolyOp K) :
    (h.step eps (.on i op)).Separate ∧ (h.step eps (.on i op)).objs.length = h.objs.length ∧
    ∀ j, (h.step eps (.on i op)).view j = if i = j then (h.view j).map (op.run eps) else h.view j := by
  unfold step
  simp only
  cases ho : h.objs[i]? with
  | none =>
    simp only
    refine ⟨hs, trivial, fun j => ?_⟩
    split
    · rename_i hij; subst hij
      have : h.view i = none := by unfold view; rw [ho]
      rw [this]; rfl
    · rfl
  | some rc =>
    obtain ⟨r, c⟩ := rc
    have hlt : i < h.objs.length := (List.getElem?_eq_some_iff.mp ho).1
    have hr := hs.bound i r c ho
    have hvi : h.view i = some { c with verts := h.lists[r]?.getD [] } := by unfold view; rw [ho]
    simp only [hvi]
    refine ⟨⟨?_, ?_⟩, by simp, ?_⟩
    · intro k r' c' hk
      simp only [List.length_set]
      rw [List.getElem?_set] at hk
      split at hk
      · simp at hk; omega
      · exact hs.bound k r' c' hk
    · intro k l r' c' d' hk hl
      simp only at hk hl
      rw [List.getElem?_set] at hk hl
      split at hk <;> split at hl
      · omega
      · rename_i h1 h2
        simp at hk
        have := hs.inj i l r' c d' (by rw [ho, hk.1]) hl
        omega
      · rename_i h1 h2
        simp at hl
        have := hs.inj k i r' c' c hk (by rw [ho, hl.1])
        omega
      · exact hs.inj k l r' c' d' hk hl
    · intro j
      unfold view
      simp only
      by_cases hij : i = j
      · subst hij
        rw [List.getElem?_set_self hlt, ho]
        simp only [if_true, Option.map_some, List.getElem?_set_self hr, Option.getD_some]
      · rw [List.getElem?_set_ne hij, if_neg hij]
        cases hoj : h.objs[j]? with
        | none => rfl
        | some rd =>
          obtain ⟨r', d⟩ := rd
          simp only
          have hne : r ≠ r' := by
            rintro rfl
            exact hij (hs.inj i j r c d ho hoj)
          rw [List.getElem?_set_ne hne]

theorem Heap.step_facts {eps : K} {h : Heap K} (hs : h.Separate) (o : Heap.Op K) :
    (h.step eps o).Separate ∧ h.objs.length ≤ (h.step eps o).objs.length ∧
    ∀ j, j < h.objs.length → (h.step eps o).view j = (h.view j).map fun s => s.after eps (Heap.opsOn j [o]) := by
  have none' : ∀ (s : Polygon K), (h.alloc s).Separate ∧ h.objs.length ≤ (h.alloc s).objs.length ∧
      ∀ j, j < h.objs.length → (h.alloc s).view j = (h.view j).map fun s => s := by
    intro s
    refine ⟨separate_alloc hs s, by simp [alloc], fun j hj => ?_⟩
    rw [(view_alloc hs s).1 j hj]; simp
  have noop : h.Separate ∧ h.objs.length ≤ h.objs.length ∧
      ∀ j, j < h.objs.length → h.view j = (h.view j).map fun s => s := ⟨hs, le_refl _, fun j _ => by simp⟩
  cases o with
  | make vs => exact none' _
  | on i op =>
    have := step_on (eps := eps) hs i op
    refine ⟨this.1, this.2.1.ge, fun j _ => ?_⟩
    rw [this.2.2 j]
    split
    · rename_i hij; simp [opsOn, hij, Polygon.after]
    · rename_i hij; simp [opsOn, hij, Polygon.after]
  | copy i =>
    unfold step; simp only
    cases hv : h.view i with
    | none => exact noop
    | some s => exact none' _
  | deepcopy i =>
    unfold step; simp only
    cases hv : h.view i with
    | none => exact noop
    | some s => exact none' _
  | transformed i T =>
    unfold step; simp only
    cases hv : h.view i with
    | none => exact noop
    | some s => exact none' _

theorem Heap.run_facts {eps : K} {h : Heap K} (hs : h.Separate) (ops : List (Heap.Op K)) :
    (ops.foldl (Heap.step eps) h).Separate ∧
    ∀ j, j < h.objs.length →
      (ops.foldl (Heap.step eps) h).view j = (h.view j).map fun s => s.after eps (Heap.opsOn j ops) := by
  induction ops generalizing h with
  | nil => exact ⟨hs, fun j _ => by simp [opsOn, Polygon.after]⟩
  | cons o ops ih =>
    have h1 := step_facts (eps := eps) hs o
    have h2 := ih h1.1
    refine ⟨h2.1, fun j hj => ?_⟩
    rw [List.foldl_cons, h2.2 j (lt_of_lt_of_le hj h1.2.1), h1.2.2 j hj, Option.map_map]
    congr 1
    funext s
    simp only [Function.comp, Polygon.after, opsOn]
    rw [← List.foldl_append, ← List.filterMap_append]
    rfl

theorem Heap.separate_empty : (⟨[], []⟩ : Heap K).Separate := ⟨by simp, by simp⟩

/-- **C56** independence: in any program that makes, copies, deep-copies and transforms polygons, take the state after any
prefix `before`, copy object `i` (giving the new object `n`), and go on with any program `rest`. Then the original is what
its own operations alone make of it, and the copy is what its own operations alone make of the copy. -/
theorem C56_independent (eps : K) (before rest : List (Heap.Op K)) (i : Nat) (deep : Bool) (s : Polygon K)
    (hs : (before.foldl (Heap.step eps) ⟨[], []⟩).view i = some s) :
    let h := before.foldl (Heap.step eps) ⟨[], []⟩
    let n := h.objs.length
    let h' := rest.foldl (Heap.step eps) (h.step eps (if deep then .deepcopy i else .copy i))
    h'.view i = some (s.after eps (Heap.opsOn i rest)) ∧
    h'.view n = some ((if deep then s.deepcopy else s.copy).after eps (Heap.opsOn n rest)) := by
  intro h n h'
  have hsep : h.Separate := (Heap.run_facts (eps := eps) Heap.separate_empty before).1
  have hstep : h.step eps (if deep then .deepcopy i else .copy i) = h.alloc (if deep then s.deepcopy else s.copy) := by
    cases deep <;> simp [Heap.step, h, hs]
  have hi : i < h.objs.length := by
    by_contra hc
    have : h.view i = none := by unfold Heap.view; rw [List.getElem?_eq_none (by omega)]
    rw [this] at hs; simp at hs
  have r := Heap.run_facts (eps := eps) (Heap.separate_alloc hsep (if deep then s.deepcopy else s.copy)) rest
  have hl : (h.alloc (if deep then s.deepcopy else s.copy)).objs.length = h.objs.length + 1 := by simp [Heap.alloc]
  refine ⟨?_, ?_⟩
  · change (rest.foldl (Heap.step eps) (h.step eps _)).view i = _
    rw [hstep, r.2 i (by omega), (Heap.view_alloc hsep _).1 i hi, hs]; rfl
  · change (rest.foldl (Heap.step eps) (h.step eps _)).view h.objs.length = _
    rw [hstep, r.2 _ (by omega), (Heap.view_alloc hsep _).2]; rfl

/-- A program: make a square, copy it, move a vertex of the original: the copy keeps its vertices. -/
example : let h := ([.make [⟨0, 0⟩, ⟨4, 0⟩, ⟨4, 4⟩, (⟨0, 4⟩ : Vec2 ℚ)], .copy 0, .on 0 (.setItem 0 ⟨9, 9⟩)] :
      List (Heap.Op ℚ)).foldl (Heap.step (1/1000)) ⟨[], []⟩
    ((h.view 0).map (·.verts) = some [⟨9, 9⟩, ⟨4, 0⟩, ⟨4, 4⟩, ⟨0, 4⟩]) ∧
    ((h.view 1).map (·.verts) = some [⟨0, 0⟩, ⟨4, 0⟩, ⟨4, 4⟩, ⟨0, 4⟩]) := by
  simp [Heap.step, Heap.alloc, Heap.view, PolyOp.run, setItem, pySet, pyIndex, fromPoints, Polygon.copy, cleared,
    clearCached]

end Planar
