import Verif.Lemmas.YTotal
import Verif.Props.Triangle
/- C51, C52: `contains_point` before and after other properties have been read. -/
set_option linter.unusedSectionVars false
namespace Planar
open Spec
open Polygon
variable {K : Type} [Field K] [LinearOrder K] [IsStrictOrderedRing K]

/-- The bounding box and the winding test together. -/
theorem box_winding {vs : List (Vec2 K)} (hne : vs ≠ []) {b : Box K} (hb : Box.fromPoints vs = .ok b) (p : Vec2 K) :
    (if b.containsPoint p then pnpWinding vs p else false) = (winding vs p != 0) := by
  obtain ⟨b', hb', ht⟩ := fromPoints_tight hne
  rw [hb] at hb'; injection hb' with hb'; subst hb'
  split
  · exact pnpWinding_eq hne p
  · rename_i h
    rw [winding_outside_box ht (by simpa using h)]; rfl

/-- What `contains_point` answers, given the attributes of the object. -/
theorem contains_inv {eps : K} {s : Polygon K} (h : Inv eps s) (h4 : 4 ≤ s.verts.length)
    (hs : s.verts.length = 4 ∨ s.centroid ≠ some none) (p : PyPoint K) :
    (s.containsPoint eps p).1 = match s.yPolylines with
      | some pls => pnpYMonotone pls p.toVec
      | none => .ok (winding s.verts p.toVec != 0) := by
  have hne : s.verts ≠ [] := by rintro he; rw [he] at h4; simp at h4
  have h3 : s.verts.length ≠ 3 := by omega
  have tail : (match s.yPolylines with
      | some pls => (pnpYMonotone pls p.toVec, s)
      | none =>
        if s.verts.length = 4 then (Except.ok (pnpWinding s.verts p.toVec), s)
        else match s.boundingBox with
          | (.error e, s) => (.error e, s)
          | (.ok b, s) =>
            if b.containsPoint p.toVec then (.ok (pnpWinding s.verts p.toVec), s)
            else (.ok false, s)).1 = match s.yPolylines with
      | some pls => pnpYMonotone pls p.toVec
      | none => .ok (winding s.verts p.toVec != 0) := by
    cases hy : s.yPolylines with
    | some pls => rfl
    | none =>
      simp only
      by_cases e4 : s.verts.length = 4
      · simp only [e4, if_true, pnpWinding_eq hne]
      · simp only [e4, if_false]
        obtain ⟨b1, b2, b3⟩ := inv_boundingBox h
        obtain ⟨b, hb, -⟩ := fromPoints_tight hne
        rw [hb] at b1
        rcases hbb : s.boundingBox with ⟨r, s'⟩
        rw [hbb] at b1 b3
        simp only at b1 b3
        subst b1
        simp only [b3]
        rw [← box_winding hne hb p.toVec]
        split <;> rfl
  unfold containsPoint
  simp only [h3, if_false]
  cases hc : s.centroid with
  | none => exact tail
  | some c =>
    by_cases h5 : s.verts.length > 4
    · cases c with
      | none => rcases hs with hs | hs; exacts [absurd hs (by omega), absurd hc hs]
      | some c =>
        simp only [h5, if_true, h.minR2, h.maxR2]
        exact tail
    · simp only [h5, if_false]
      exact tail

/-- The state of an object built without declared flags. -/
theorem new_inv {vs : List (Vec2 K)} {s0 : Polygon K} (h : Polygon.new vs = .ok s0) (eps : K) :
    3 ≤ vs.length ∧ s0 = Polygon.fromPoints vs ∧ Inv eps s0 ∧ s0.verts = vs := by
  have h3 : 3 ≤ vs.length := by
    by_contra hc
    rw [(C43_new vs none none).1 (by omega)] at h
    simp at h
  rw [C44_fresh_new eps vs h3] at h
  injection h with h
  subst h
  exact ⟨h3, rfl, inv_fromPoints eps vs, rfl⟩

/-- The chains are only stored for polygons classified as convex. -/
theorem ypl_cases {eps : K} {s : Polygon K} (h : Inv eps s) (h4 : 4 ≤ s.verts.length) :
    s.yPolylines = none ∨ (s.yPolylines = some (splitYPolylines s.verts) ∧ cv s.verts = true) := by
  rcases h.long (by omega) with h | h
  · exact Or.inl h.ypl
  · rw [h.ypl]
    by_cases hcv : cv s.verts = true <;> by_cases hd : dg s.verts = true <;> simp [hcv, hd]

/-- **C51** reading `is_convex` does not change what `contains_point` answers for a convex polygon with more than three
vertices: both are the answer of the winding rule. (Partial: the polygon is flat, or its leftmost vertex is not the lowest
one, and when it is the highest the rightmost is not the lowest. Without this: `C51_violated`, and `C51_sound` is what
remains.) -/
theorem C51_agree_partial (eps : K) (vs : List (Vec2 K)) (s : Polygon K) (h : Polygon.new vs = .ok s) (h4 : 4 ≤ vs.length)
    (hc : Convex vs) (hg : Flat vs ∨ Clear vs) (p : PyPoint K) :
    (s.isConvex.2.containsPoint eps p).1 = (s.containsPoint eps p).1 ∧
    (s.containsPoint eps p).1 = .ok (winding vs p.toVec != 0) := by
  obtain ⟨-, rfl, hi, hv⟩ := new_inv h eps
  have hne : vs ≠ [] := by rintro rfl; simp at h4
  rw [C48_winding eps vs h4 p]
  refine ⟨?_, rfl⟩
  obtain ⟨-, hi', hv', -⟩ := inv_isConvex hi
  rw [hv] at hv'
  have hcen : (fromPoints vs).isConvex.2.centroid = none := by
    rw [isConvex_unknown (by simp [fromPoints, cleared]; omega), classify_eq]
    simp [fromPoints, cleared]
  rw [contains_inv hi' (by rw [hv']; exact h4) (Or.inr (by rw [hcen]; simp))]
  rcases ypl_cases hi' (by rw [hv']; exact h4) with hy | ⟨hy, -⟩
  · simp only [hy, hv']
  · simp only [hy, hv']
    obtain ⟨b, hb, -, hb2⟩ := ymono_winding hne hc p.toVec
    rw [hb, hb2 hg]

/-- **C51** the same for a polygon that was declared convex. -/
theorem C51_declared_partial (eps : K) (vs : List (Vec2 K)) (s : Polygon K) (m : Option Bool)
    (h : Polygon.new vs (some true) m = .ok s) (h4 : 4 ≤ vs.length) (hc : Convex vs) (hg : Flat vs ∨ Clear vs)
    (p : PyPoint K) : (s.containsPoint eps p).1 = .ok (winding vs p.toVec != 0) := by
  have hne : vs ≠ [] := by rintro rfl; simp at h4
  rw [new_eq vs _ _ (by omega)] at h
  injection h with h
  subst h
  obtain ⟨b, hb, -, hb2⟩ := ymono_winding hne hc p.toVec
  rw [← hb2 hg, ← hb]
  unfold containsPoint
  simp only [cleared, show ¬ vs.length = 3 by omega, if_false]
  simp [show vs.length > 3 by omega]

/-- **C51** without the condition: for every convex polygon the answer after `is_convex` has been read is True only where
it was True before; and nothing is raised. -/
theorem C51_sound (eps : K) (vs : List (Vec2 K)) (s : Polygon K) (h : Polygon.new vs = .ok s) (h4 : 4 ≤ vs.length)
    (hc : Convex vs) (p : PyPoint K) :
    ∃ b a, (s.containsPoint eps p).1 = .ok b ∧ (s.isConvex.2.containsPoint eps p).1 = .ok a ∧ (a = true → b = true) := by
  obtain ⟨-, rfl, hi, hv⟩ := new_inv h eps
  have hne : vs ≠ [] := by rintro rfl; simp at h4
  rw [C48_winding eps vs h4 p]
  obtain ⟨-, hi', hv', -⟩ := inv_isConvex hi
  rw [hv] at hv'
  have hcen : (fromPoints vs).isConvex.2.centroid = none := by
    rw [isConvex_unknown (by simp [fromPoints, cleared]; omega), classify_eq]
    simp [fromPoints, cleared]
  rw [contains_inv hi' (by rw [hv']; exact h4) (Or.inr (by rw [hcen]; simp))]
  rcases ypl_cases hi' (by rw [hv']; exact h4) with hy | ⟨hy, -⟩
  · simp only [hy, hv']; exact ⟨_, _, rfl, rfl, id⟩
  · simp only [hy, hv']
    obtain ⟨b, hb, hb1, -⟩ := ymono_winding hne hc p.toVec
    rw [hb]
    exact ⟨_, _, rfl, rfl, fun h => by simpa using hb1 h⟩

/-- **C51** is false in general: (5/2, 5/2) is the centre of this parallelogram; `contains_point` says True, and False
once `is_convex` has been read. -/
theorem C51_violated : ∃ s : Polygon ℚ, Polygon.new [⟨0, 0⟩, ⟨4, 1⟩, ⟨5, 5⟩, (⟨1, 4⟩ : Vec2 ℚ)] = .ok s ∧
    (s.containsPoint (1/100000) (.vec ⟨5/2, 5/2⟩)).1 = .ok true ∧
    (s.isConvex.2.containsPoint (1/100000) (.vec ⟨5/2, 5/2⟩)).1 = .ok false :=
  ⟨_, rfl, by decide +kernel, by decide +kernel⟩

/-- The conditions of `C51_agree_partial` hold for an ordinary quadrilateral, and both answers occur. -/
example : Convex [⟨0, 1⟩, ⟨2, 0⟩, ⟨4, 2⟩, (⟨1, 4⟩ : Vec2 ℚ)] ∧ Clear [⟨0, 1⟩, ⟨2, 0⟩, ⟨4, 2⟩, (⟨1, 4⟩ : Vec2 ℚ)] ∧
    winding [⟨0, 1⟩, ⟨2, 0⟩, ⟨4, 2⟩, (⟨1, 4⟩ : Vec2 ℚ)] ⟨2, 2⟩ ≠ 0 ∧
    winding [⟨0, 1⟩, ⟨2, 0⟩, ⟨4, 2⟩, (⟨1, 4⟩ : Vec2 ℚ)] ⟨5, 2⟩ = 0 := by
  refine ⟨convex_of_cv (by decide) (by rw [Ne, Vec2.ext_iff]; decide +kernel) (by decide +kernel), ?_, by decide +kernel, by decide +kernel⟩
  intro lo hi le ri h1 h2 h3 h4
  have m1 : le ∈ [⟨0, 1⟩, ⟨2, 0⟩, ⟨4, 2⟩, (⟨1, 4⟩ : Vec2 ℚ)] := by
    obtain ⟨b, a, h, -⟩ := h3; rw [h]; simp
  have m2 : lo ∈ [⟨0, 1⟩, ⟨2, 0⟩, ⟨4, 2⟩, (⟨1, 4⟩ : Vec2 ℚ)] := by
    obtain ⟨b, a, h, -⟩ := h1; rw [h]; simp
  have m3 : hi ∈ [⟨0, 1⟩, ⟨2, 0⟩, ⟨4, 2⟩, (⟨1, 4⟩ : Vec2 ℚ)] := by
    obtain ⟨b, a, h, -⟩ := h2; rw [h]; simp
  obtain ⟨-, -, -, l1, -⟩ := h3
  obtain ⟨-, -, -, l2, -⟩ := h1
  obtain ⟨-, -, -, l3, -⟩ := h2
  have e1 := l1 ⟨0, 1⟩ (by simp)
  have e2 := l2 ⟨2, 0⟩ (by simp)
  have e3 := l3 ⟨1, 4⟩ (by simp)
  simp only [List.mem_cons, List.not_mem_nil, or_false] at m1 m2 m3
  rcases m1 with rfl | rfl | rfl | rfl <;> rcases m2 with rfl | rfl | rfl | rfl <;> rcases m3 with rfl | rfl | rfl | rfl <;>
    first | (exfalso; norm_num at e1; done) | (exfalso; norm_num at e2; done) | (exfalso; norm_num at e3; done) | simp

/-- The triangle test answers for every triangle and every vector. -/
theorem triangle_total (eps : K) (vs : List (Vec2 K)) (h3 : vs.length = 3) (p : Vec2 K) :
    ∃ b, ((Polygon.fromPoints vs).containsPoint eps (.vec p)).1 = .ok b := by
  obtain ⟨lo, mid, hi, hs⟩ := List.length_eq_three.mp
    (show (pySorted yxLt vs).length = 3 by rw [(pySorted_perm _ vs).length_eq, h3])
  have hp : vs.Perm [lo, mid, hi] := by rw [← hs]; exact (pySorted_perm _ vs).symm
  have hpw := pySorted_pairwise yxLt_trans yxLt_total vs
  rw [hs] at hpw
  simp only [List.pairwise_cons, List.mem_cons, List.not_mem_nil, or_false, forall_eq_or_imp, forall_eq] at hpw
  have h1 := (yxLt_iff _ _).mp hpw.1.1
  have h2 := (yxLt_iff _ _).mp hpw.2.1
  by_cases n1 : (lo - mid).isNull eps = true
  · exact ⟨_, C50_tiny_violated eps vs lo mid hi hp h1 h2 (Or.inl n1) _⟩
  · by_cases n2 : (hi - mid).isNull eps = true
    · exact ⟨_, C50_tiny_violated eps vs lo mid hi hp h1 h2 (Or.inr n2) _⟩
    · exact ⟨_, C50_triangle_partial eps vs lo mid hi hp h1 h2 (by simpa using n1) (by simpa using n2) p⟩

/-- **C52** for a triangle `contains_point` of a vector never raises, and after any history of reads gives the answer it
gave at first. -/
theorem C52_triangle (eps : K) (vs : List (Vec2 K)) (s : Polygon K) (h : Polygon.new vs = .ok s) (h3 : vs.length = 3)
    (reads : List (PolyOp K)) (hr : ∀ op ∈ reads, op.isRead = true) (p : Vec2 K) :
    ∃ b, ((s.after eps reads).containsPoint eps (.vec p)).1 = .ok b ∧ (s.containsPoint eps (.vec p)).1 = .ok b := by
  obtain ⟨-, rfl, hi, hv⟩ := new_inv h eps
  obtain ⟨b, hb⟩ := triangle_total eps vs h3 p
  refine ⟨b, ?_, hb⟩
  obtain ⟨hi', -, hv'⟩ := inv_after hi reads
  have hv' := hv' hr
  rw [hv] at hv'
  have e3 : ((fromPoints vs).after eps reads).verts.length = 3 := by rw [hv', h3]
  have := (inv_pnpTriangle hi' e3 (.vec p)).2.2
  rw [← hb]
  unfold containsPoint
  simp only [e3, hv, h3, if_true]
  rw [this, hv']

/-- **C52** after any history of reads `contains_point` of a polygon with four or more vertices does not raise, provided
the polygon is a quadrilateral or simple. (Partial: without this proviso `C52_violated`.) -/
theorem C52_no_raise_partial (eps : K) (vs : List (Vec2 K)) (s : Polygon K) (h : Polygon.new vs = .ok s) (h4 : 4 ≤ vs.length)
    (hs : vs.length = 4 ∨ s.isSimple.1 = true) (reads : List (PolyOp K)) (hr : ∀ op ∈ reads, op.isRead = true)
    (p : PyPoint K) : ∃ b, ((s.after eps reads).containsPoint eps p).1 = .ok b := by
  obtain ⟨-, rfl, hi, hv⟩ := new_inv h eps
  have hne : vs ≠ [] := by rintro rfl; simp at h4
  obtain ⟨hi', -, hv'⟩ := inv_after hi reads
  have hv' := hv' hr
  rw [hv] at hv'
  have hcen : vs.length = 4 ∨ ((fromPoints vs).after eps reads).centroid ≠ some none := by
    rcases hs with hs | hs
    · exact Or.inl hs
    · right
      intro hc
      have := hi'.centroid _ hc
      rw [hv'] at this
      rw [(inv_isSimple hi).1, hv] at hs
      rw [centroidVal, hs, if_pos rfl] at this
      rcases hcc : computeCentroid vs with e | c <;> rw [hcc] at this <;> cases this
  rw [contains_inv hi' (by rw [hv']; exact h4) (by rw [hv']; exact hcen)]
  rcases ypl_cases hi' (by rw [hv']; exact h4) with hy | ⟨hy, -⟩
  · simp only [hy]; exact ⟨_, rfl⟩
  · simp only [hy, hv']; exact ymono_total hne p.toVec

/-- **C52** after any history of reads `contains_point` answers what it answered at first, provided the polygon is a
quadrilateral or simple, and, if `is_convex` is True, it is convex and flat or clear. (Partial: without the first proviso
`C52_violated`, without the second `C51_violated`.) -/
theorem C52_history_partial (eps : K) (vs : List (Vec2 K)) (s : Polygon K) (h : Polygon.new vs = .ok s) (h4 : 4 ≤ vs.length)
    (hs : vs.length = 4 ∨ s.isSimple.1 = true) (hcv : s.isConvex.1 = true → Convex vs ∧ (Flat vs ∨ Clear vs))
    (reads : List (PolyOp K)) (hr : ∀ op ∈ reads, op.isRead = true) (p : PyPoint K) :
    ((s.after eps reads).containsPoint eps p).1 = .ok (winding vs p.toVec != 0) ∧
    (s.containsPoint eps p).1 = .ok (winding vs p.toVec != 0) := by
  obtain ⟨-, rfl, hi, hv⟩ := new_inv h eps
  have hne : vs ≠ [] := by rintro rfl; simp at h4
  refine ⟨?_, C48_winding eps vs h4 p⟩
  obtain ⟨hi', -, hv'⟩ := inv_after hi reads
  have hv' := hv' hr
  rw [hv] at hv'
  have hcen : vs.length = 4 ∨ ((fromPoints vs).after eps reads).centroid ≠ some none := by
    rcases hs with hs | hs
    · exact Or.inl hs
    · right
      intro hc
      have := hi'.centroid _ hc
      rw [hv'] at this
      rw [(inv_isSimple hi).1, hv] at hs
      rw [centroidVal, hs, if_pos rfl] at this
      rcases hcc : computeCentroid vs with e | c <;> rw [hcc] at this <;> cases this
  rw [contains_inv hi' (by rw [hv']; exact h4) (by rw [hv']; exact hcen)]
  rcases ypl_cases hi' (by rw [hv']; exact h4) with hy | ⟨hy, hcvt⟩
  · simp only [hy, hv']
  · simp only [hy, hv']
    rw [hv'] at hcvt
    obtain ⟨hc, hg⟩ := hcv (by rw [(inv_isConvex hi).1, hv, convexVal, if_pos (by omega), hcvt])
    obtain ⟨b, hb, -, hb2⟩ := ymono_winding hne hc p.toVec
    rw [hb, hb2 hg]

/-- **C52** is false in general: `contains_point` of this self-intersecting pentagon answers, and raises TypeError once
`centroid` has been read. -/
theorem C52_violated : ∃ s : Polygon ℚ, Polygon.new [⟨0, 0⟩, ⟨4, 4⟩, ⟨0, 4⟩, ⟨4, 0⟩, (⟨5, 2⟩ : Vec2 ℚ)] = .ok s ∧
    (s.containsPoint (1/100000) (.vec ⟨2, 7/2⟩)).1 = .ok true ∧
    (s.getCentroid.2.containsPoint (1/100000) (.vec ⟨2, 7/2⟩)).1 = .error .typeError :=
  ⟨_, rfl, by decide +kernel, by decide +kernel⟩

/-- The hypotheses of `C52_history_partial` for a non-convex simple pentagon; both answers occur. -/
example : ∃ s : Polygon ℚ, Polygon.new [⟨0, 0⟩, ⟨4, 0⟩, ⟨4, 4⟩, ⟨2, 1⟩, (⟨0, 4⟩ : Vec2 ℚ)] = .ok s ∧ s.isSimple.1 = true ∧
    s.isConvex.1 = false ∧ ((s.after (1/100000) [.centroid, .isConvex]).containsPoint (1/100000) (.vec ⟨1, 1⟩)).1 = .ok true ∧
    ((s.after (1/100000) [.centroid, .isConvex]).containsPoint (1/100000) (.vec ⟨2, 3⟩)).1 = .ok false :=
  ⟨_, rfl, by decide +kernel, by decide +kernel, by decide +kernel, by decide +kernel⟩

end Planar
