import Verif.Props.HullExact
import Verif.Props.HullDistinct
import Verif.Props.Declared
import Verif.Props.SimpleConvex
import Verif.Props.ConvexExact
import Verif.Props.Region
import Verif.Props.AllPolys
import Verif.Props.RunningTime
/- C89: what the polygon that `convex_hull` returns answers. -/
set_option linter.unusedSectionVars false
namespace Planar
open Spec Polygon Hull
variable {K : Type} [Field K] [LinearOrder K] [IsStrictOrderedRing K]

namespace Hull

theorem convexHull_new {order : List (Vec2 K) → List (Vec2 K)} {points : List (Vec2 K)} {s : Polygon K}
    (h : convexHull order points = .ok s) : Polygon.new s.verts (some true) none = .ok s := by
  have hq := convexHull_inv h
  simp only [convexHull, hq, bind, Except.bind] at h
  exact h

/-- Reads keep the vertices of a polygon declared convex. -/
theorem reads_verts (eps : K) {vs : List (Vec2 K)} {s : Polygon K} (h : Polygon.new vs (some true) none = .ok s)
    (reads : List (PolyOp K)) (hr : ∀ op ∈ reads, op.isRead = true) : (s.after eps reads).verts = s.verts := by
  have h3 : 3 ≤ vs.length := by
    by_contra hcon
    have := (C43_new vs (some true) none).1 (by omega)
    rw [h] at this
    simp at this
  rcases h3.eq_or_lt with e | h4
  · have hs : Polygon.new vs none none = .ok s := by
      rw [← h, Polygon.new, Polygon.new]
      simp [cleared, ← e]
    obtain ⟨-, -, hi, -⟩ := new_inv hs eps
    exact (inv_after hi reads).2.2 hr
  · exact ((declared_new h4 h).1.after eps reads hr).2.1

/-- The hull of points that are not above each other begins at a leftmost point. -/
theorem hull_head {order : List (Vec2 K) → List (Vec2 K)} (hord : ∀ l, (order l).Perm l) {points : List (Vec2 K)}
    (h : ¬ Flat points) {s : Polygon K} (hs : convexHull order points = .ok s) : ∃ L t, s.verts = L :: t ∧ ∀ p ∈ points, L.x ≤ p.x := by
  obtain ⟨L, R, up, lo, t1, t2, hv, -, hx, -⟩ := hull_chains hord h hs
  exact ⟨L, t1 ++ R :: t2, hv, fun p hp => (hx p hp).1⟩

theorem not_swapped {vs t : List (Vec2 K)} {L : Vec2 K} (hvs : vs = L :: t) (hL : ∀ v ∈ vs, L.x ≤ v.x) (hc : Clockwise vs)
    (hf : ¬ Flat vs) : ¬ Swapped vs := by
  rintro ⟨lowest, highest, leftmost, rightmost, -, -, h3, -, h⟩
  have hnot : ¬ Anticlockwise vs := fun ha => hf (flat_of_both ha hc)
  have h0 : leftmost = 0 := by
    by_contra hne
    obtain ⟨v, e, -, hlt⟩ := h3
    have h1 := hlt 0 L (Nat.pos_of_ne_zero hne) (by rw [hvs]; rfl)
    have h2 := hL v (List.mem_of_getElem? e)
    exact absurd h1 (not_lt.mpr h2)
  rcases h with ⟨e, h | h⟩ | ⟨e, -, h | h⟩
  · exact hnot h.2
  · omega
  · omega
  · exact hnot h.2

end Hull

/-- **C89** the hull of points that are not on a line is what its flags say, and goes on saying it after any reads: `is_convex`
and `is_simple` are True, and it is convex, has no vertex twice, and no two edges that are not neighbours have a point in
common; even when points were lost (C57). -/
theorem C89_flags (eps : K) (order : List (Vec2 K) → List (Vec2 K)) (hord : ∀ l, (order l).Perm l) (points : List (Vec2 K))
    (h : ¬ Flat points) (s : Polygon K) (hs : convexHull order points = .ok s) (reads : List (PolyOp K))
    (hr : ∀ op ∈ reads, op.isRead = true) :
    (s.after eps reads).isConvex.1 = true ∧ (s.after eps reads).isSimple.1 = true ∧ (s.after eps reads).verts = s.verts ∧
    Convex s.verts ∧ s.verts.Nodup ∧ ¬ SelfTouching s.verts := by
  have hn := convexHull_new hs
  obtain ⟨-, hc, hf⟩ := C57_convex order hord points h s hs
  have hx : ∃ a ∈ points, ∃ b ∈ points, a.x ≠ b.x := by
    by_contra hcon
    push Not at hcon
    apply h
    intro a ha b hb c hc
    simp only [side]
    rw [hcon a ha b hb, hcon c hc b hb]; ring
  have hnd := C57_nodup order hord points hx s hs
  have h3 : 3 ≤ s.verts.length := by
    by_contra hcon
    have := (C43_new s.verts (some true) none).1 (by omega)
    rw [hn] at this
    simp at this
  obtain ⟨f1, f2, -⟩ := C63_declared eps s.verts (some true) none s hn reads hr
  obtain ⟨u, hu, huv⟩ := (C43_new s.verts none none).2 h3
  have hsimple := C46_convex eps s.verts u hu [] (C45_complete eps s.verts u hu [] (by simpa [Polygon.after, huv] using hc))
    (by simpa [Polygon.after, huv] using hnd) (by simpa [Polygon.after, huv] using hf)
  refine ⟨?_, ?_, reads_verts eps hn reads hr, hc, hnd, by simpa [Polygon.after, huv] using hsimple.2⟩
  · rcases h3.eq_or_lt with e | h4
    · exact (f1 e.symm).1
    · exact (f2 h4 rfl).1
  · rcases h3.eq_or_lt with e | h4
    · exact (f1 e.symm).2
    · exact (f2 h4 rfl).2

/-- **C89** with four or more vertices it answers `contains_point` by the winding rule on its vertices, at once and after any
reads: unlike other polygons declared convex (`C51_swapped_violated`) it is never listed in an order that makes it contain
nothing. -/
theorem C89_contains (eps : K) (order : List (Vec2 K) → List (Vec2 K)) (hord : ∀ l, (order l).Perm l) (points : List (Vec2 K))
    (h : ¬ Flat points) (s : Polygon K) (hs : convexHull order points = .ok s) (h4 : 4 ≤ s.verts.length) (reads : List (PolyOp K))
    (hr : ∀ op ∈ reads, op.isRead = true) (p : PyPoint K) :
    ((s.after eps reads).containsPoint eps p).1 = .ok (winding s.verts p.toVec != 0) := by
  have hn := convexHull_new hs
  obtain ⟨hright, hc, hf⟩ := C57_convex order hord points h s hs
  obtain ⟨f1, f2, f3, -⟩ := C89_flags eps order hord points h s hs reads hr
  obtain ⟨L, t, hv, hL⟩ := hull_head hord h hs
  have hsub := C57_vertices order hord points s hs
  have hsw : ¬ Swapped s.verts := not_swapped hv (fun v hv => hL v (hsub v hv)) hright hf
  obtain ⟨u, hu, huv⟩ := (C43_new s.verts none none).2 (by omega)
  have hcv : (Polygon.fromPoints s.verts).isConvex.1 = true := by
    have := C45_complete eps s.verts u hu [] (by simpa [Polygon.after, huv] using hc)
    have e : u = Polygon.fromPoints s.verts := by
      rw [Polygon.new, if_neg (by simp; omega)] at hu
      simp [map_copy'] at hu
      rw [← hu]; rfl
    rw [e] at this
    exact this
  have := C63_contains_correct eps s.verts (some true) none s hn h4 (Or.inr (by rw [hcv])) (Or.inl rfl) reads (Or.inr f2)
    (fun _ => by rw [f3]; exact ⟨hc, Or.inr hsw⟩) p
  rwa [f3] at this

/-- **C89** so a point strictly on the inner side of all the edges is contained, whatever was read before, in particular such a point
among those given; and a point strictly on the outer side of some edge is not. -/
theorem C89_inside (eps : K) (order : List (Vec2 K) → List (Vec2 K)) (hord : ∀ l, (order l).Perm l) (points : List (Vec2 K))
    (h : ¬ Flat points) (s : Polygon K) (hs : convexHull order points = .ok s) (h4 : 4 ≤ s.verts.length) (reads : List (PolyOp K))
    (hr : ∀ op ∈ reads, op.isRead = true) (p : PyPoint K) :
    ((∀ e ∈ edges s.verts, side e.1 e.2 p.toVec < 0) → ((s.after eps reads).containsPoint eps p).1 = .ok true) ∧
    ((∃ e ∈ edges s.verts, 0 < side e.1 e.2 p.toVec) → ((s.after eps reads).containsPoint eps p).1 = .ok false) := by
  obtain ⟨hright, hc, hf⟩ := C57_convex order hord points h s hs
  rw [C89_contains eps order hord points h s hs h4 reads hr p]
  obtain ⟨u, hu, -, hw⟩ := C48_winding_new eps s.verts h4 p
  constructor
  · intro hin
    rw [← hw]
    exact C61_interior eps s.verts u hu h4 p (Or.inr hin)
  · intro hout
    rw [← hw]
    exact C61_exterior eps s.verts u hu h4 p (Or.inr ⟨hright, hout⟩)

/-- **C89** a hull with three vertices that are at least EPSILON apart answers by the winding rule as well (vectors; C50). -/
theorem C89_triangle (eps : K) (order : List (Vec2 K) → List (Vec2 K)) (points : List (Vec2 K)) (s : Polygon K)
    (hs : convexHull order points = .ok s) (h3 : s.verts.length = 3) (hw : Wide eps s.verts) (reads : List (PolyOp K))
    (hr : ∀ op ∈ reads, op.isRead = true) (p : Vec2 K) :
    ((s.after eps reads).containsPoint eps (.vec p)).1 = .ok (winding s.verts p != 0) := by
  have hn := convexHull_new hs
  obtain ⟨u, hu, huv⟩ := (C43_new s.verts none none).2 (by omega)
  have e1 : u = Polygon.fromPoints s.verts := by
    rw [Polygon.new, if_neg (by simp; omega)] at hu
    simp [map_copy'] at hu
    rw [← hu]; rfl
  have e2 : s = u := by
    have : s = Polygon.fromPoints s.verts := by
      rw [Polygon.new, if_neg (by simp; omega)] at hn
      simp [map_copy', cleared, h3] at hn
      rw [← hn]; simp [Polygon.fromPoints, cleared, h3]
    rw [e1]; exact this
  obtain ⟨b, hb1, hb2⟩ := C52_triangle eps s.verts u hu h3 reads hr p
  rw [← e2] at hb1 hb2
  rw [hb1, ← hb2]
  have := C48_all eps s.verts hw p
  rw [← e1, ← e2] at this
  exact this

/-- The hypotheses, for the points of `C57_violated` after some reads: a point inside of the hull is contained, a point that the
hull has lost is not. -/
example : ∃ s, convexHull id lossy = .ok s ∧ (⟨1/10, 1⟩ : Vec2 ℚ) ∈ lossy ∧
    ((s.after (1/100000) [.centroid, .boundingBox]).containsPoint (1/100000) (.tup 1 1)).1 = .ok true ∧
    ((s.after (1/100000) [.centroid, .boundingBox]).containsPoint (1/100000) (.vec ⟨1/10, 1⟩)).1 = .ok false := by
  obtain ⟨s, hs, hv⟩ := lossy_hull
  have ho : ∀ l : List (Vec2 ℚ), (id l).Perm l := fun l => .refl l
  have hr : ∀ op ∈ [PolyOp.centroid, (PolyOp.boundingBox : PolyOp ℚ)], op.isRead = true := by simp [PolyOp.isRead]
  refine ⟨s, hs, by simp [lossy], (C89_inside _ id ho lossy lossy_not_flat s hs (by simp [hv]) _ hr _).1 ?_,
    (C89_inside _ id ho lossy lossy_not_flat s hs (by simp [hv]) _ hr _).2 ⟨(⟨0, 0⟩, ⟨1/2, 2⟩), by rw [hv]; simp [edges], ?_⟩⟩
  · intro e he
    rw [hv] at he
    simp [edges] at he
    rcases he with rfl | rfl | rfl | rfl | rfl | rfl <;> simp only [side, PyPoint.toVec] <;> norm_num
  · simp only [side, PyPoint.toVec]; norm_num

/-- A hull with three vertices that are far apart. -/
example : ∃ s, convexHull id [⟨0, 0⟩, ⟨4, 0⟩, ⟨1, 1⟩, (⟨0, 4⟩ : Vec2 ℚ)] = .ok s ∧ s.verts.length = 3 ∧ Wide (1/100000) s.verts := by
  obtain ⟨s, hs, hv⟩ := convexHull_ok (h := [⟨0, 0⟩, ⟨0, 4⟩, (⟨4, 0⟩ : Vec2 ℚ)]) (order := id)
    (points := [⟨0, 0⟩, ⟨4, 0⟩, ⟨1, 1⟩, (⟨0, 4⟩ : Vec2 ℚ)]) (ok_of (by decide +kernel)) (by simp)
  refine ⟨s, hs, by simp [hv], ?_⟩
  rw [hv]
  right
  simp
  norm_num

end Planar
