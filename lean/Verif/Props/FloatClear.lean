import Verif.Lemmas.ClearDouble
import Verif.Props.RectFloats
import Verif.Props.FloatContains
import Verif.Props.Convex
import Verif.Props.Tangents
/-
C77: rounding errors only matter near the edges. In double precision, points that are not too close to an edge, and
polygons whose corners are not too flat, get the answers that exact arithmetic gives.
-/
set_option linter.unusedSectionVars false
namespace Planar
open Spec

theorem modV_of {v : Vec2 Double} (h : Moderate v.exact) : ModV v := h

/-- The answers of the double precision object and of the exact object: the vertices are still `vs`, the same convexity and bounding box, the
same containment of every clear point, the same tangents from every point with a clear sight of the vertices, and the same
simplicity when all sides are clear. -/
def ClearAnswers (eps : Double) (eps' : ℚ) (vs : List (Vec2 Double)) (f : Polygon Double) (x : Polygon ℚ) : Prop :=
  f.verts = vs ∧ x.verts = vs.map Vec2.exact ∧ f.isConvex.1 = x.isConvex.1 ∧ x.boundingBox.1 = f.boundingBox.1.map Box.exact ∧
  (ClearSides x.verts → f.isSimple.1 = x.isSimple.1) ∧
  (∀ p : Vec2 Double, Moderate p.exact → ClearSight x.verts p.exact →
    (x.tangentsToPoint p.exact).1 = (f.tangentsToPoint p).1.map fun lr => (lr.1.exact, lr.2.exact)) ∧
  ∀ p, Moderate p.toVec.exact → ClearPoint x.verts p.toVec.exact →
    (f.containsPoint eps p).1 = (x.containsPoint eps' p.exact).1

theorem ASim.answers (eps : Double) (eps' : ℚ) {vs : List (Vec2 Double)} (hm : ∀ v ∈ vs, ModV v) {s : Polygon Double}
    {t : Polygon ℚ} (hS : ASim (ClearSides (vs.map Vec2.exact)) vs s t)
    (ops : List (PolyOp Double)) (hops : ∀ op ∈ ops, PlainRead op) :
    ClearAnswers eps eps' vs (s.after eps ops) (t.after eps' (ops.map PolyOp.exact)) := by
  have key : ∀ (ops : List (PolyOp Double)), (∀ op ∈ ops, PlainRead op) → ∀ s t,
      ASim (ClearSides (vs.map Vec2.exact)) vs s t →
      ASim (ClearSides (vs.map Vec2.exact)) vs (s.after eps ops) (t.after eps' (ops.map PolyOp.exact)) := by
    intro ops
    induction ops with
    | nil => intro _ s t h; exact h
    | cons op ops ih =>
      intro h s t hS
      have hop := h op List.mem_cons_self
      refine ih (fun o ho => h o (List.mem_cons_of_mem _ ho)) _ _ ?_
      cases op with
      | setItem i v => exact hop.elim
      | imul T => exact hop.elim
      | isConvex => exact (asim_isConvex hS).2
      | isSimple => exact (asim_isSimple hS).2
      | centroid => exact hop.elim
      | boundingBox => exact (asim_boundingBox hS).2
      | contains p => exact (asim_contains hS eps eps' p p.exact p.toVec_exact).2
      | tangents p => exact asim_tangents hS p p.exact
  have hE := key ops hops s t hS
  have hx : (t.after eps' (ops.map PolyOp.exact)).verts = vs.map Vec2.exact := by rw [hE.verts, hE.orig]
  refine ⟨hE.orig, hx, (asim_isConvex hE).1.symm, (asim_boundingBox hE).1, ?_, ?_, ?_⟩
  · intro hc
    rw [hx] at hc
    exact ((asim_isSimple hE).1 hc).symm
  · intro p hp hc
    rw [hx] at hc
    have hs := sight_of_clear hm (modV_of hp) hc
    rw [← hE.orig] at hs
    exact asim_tangentsAnswer hE hs
  · intro p hp hc
    rw [hx] at hc
    refine ((asim_contains hE eps eps' p p.exact p.toVec_exact).1 ?_).symm
    rw [hE.orig]
    exact edgeOk_of_clear hm (modV_of hp) hc

/-- **C77** In double precision, for every polygon with at least four vertices whose neighbouring vertices are distinct and
whose corners are clear, any declared flags and any history of reads and queries at any points: convexity and the bounding
box are those computed without rounding, so is the containment of every point that is clear of the edges, so are the
tangents from every point that sees the edges and vertices clearly, and so is simplicity when each vertex is clear of the
edges it does not end. -/
theorem C77_queries (eps : Double) (eps' : ℚ) (vs : List (Vec2 Double)) (h4 : 4 ≤ vs.length)
    (hm : ∀ v ∈ vs, Moderate v.exact) (hd : ∀ e ∈ edges vs, e.1 ≠ e.2) (hc : ClearCorners (vs.map Vec2.exact))
    (convex simple : Option Bool) (ops : List (PolyOp Double)) (hops : ∀ op ∈ ops, PlainRead op) :
    ∃ s t, Polygon.new vs convex simple = .ok s ∧ Polygon.new (vs.map Vec2.exact) convex simple = .ok t ∧
      ClearAnswers eps eps' vs (s.after eps ops) (t.after eps' (ops.map PolyOp.exact)) := by
  have hr := clear_classifyRun (fun v hv => modV_of (hm v hv)) (by omega) hd hc
  obtain ⟨s, t, hs, ht, hS⟩ := asim_new (b := ClearSides (vs.map Vec2.exact)) hr
    (fun hc => ok_checkSimple (turns_of_clear (fun v hv => modV_of (hm v hv)) hc)) h4 convex simple
  exact ⟨s, t, hs, ht, hS.answers eps eps' (fun v hv => modV_of (hm v hv)) ops hops⟩

/-- **C77** So `is_convex` of a new polygon with clear corners is right: True exactly for the convex polygons. -/
theorem C77_convex (vs : List (Vec2 Double)) (h4 : 4 ≤ vs.length)
    (hm : ∀ v ∈ vs, Moderate v.exact) (hd : ∀ e ∈ edges vs, e.1 ≠ e.2) (hc : ClearCorners (vs.map Vec2.exact)) :
    ∃ s, Polygon.new vs = .ok s ∧ (s.isConvex.1 = true ↔ Convex (vs.map Vec2.exact)) := by
  obtain ⟨s, t, hs, ht, -, -, h, -⟩ := C77_queries (dbl 0) 0 vs h4 hm hd hc none none [] (by simp)
  refine ⟨s, hs, ?_⟩
  have := C45_iff_partial (0 : ℚ) (vs.map Vec2.exact) t ht [] 
  have h' : s.isConvex.1 = t.isConvex.1 := h
  have hv : t.verts = vs.map Vec2.exact := (new_verts ht).1
  rw [h']
  have e : t.after 0 [] = t := rfl
  rw [e, hv] at this
  apply this
  simp only [List.length_map]
  rw [List.getElem?_eq_getElem (by simp; omega), List.getElem?_eq_getElem (by simp; omega)]
  intro heq
  simp only [Option.some.injEq, List.getElem_map] at heq
  have hmem : (vs[vs.length - 2], vs[vs.length - 1]) ∈ edges vs := by
    rw [← range_map_edges]
    refine List.mem_map.mpr ⟨vs.length - 1, by simp; omega, ?_⟩
    have e1 := nth_ofNat vs (vs.length - 1) (by omega)
    have e2 := nth_ofNat vs (vs.length - 2) (by omega)
    rw [e1, ← e2]
    congr 2; omega
  refine hd _ hmem (Vec2.ext (Fl.ext ?_) (Fl.ext ?_))
  · exact (congrArg Vec2.x heq).symm
  · exact (congrArg Vec2.y heq).symm

/-- **C77** So in double precision, after any history of reads and queries, `tangents_to_point` returns the vertices that
are tangent vertices in exact arithmetic, for a point outside the convex hull that sees the edges and vertices clearly.
(With more than 20 vertices the point must not be on the line of an edge, see `C58_violated`.) -/
theorem C77_tangents (eps : Double) (vs : List (Vec2 Double)) (h4 : 4 ≤ vs.length)
    (hm : ∀ v ∈ vs, Moderate v.exact) (hd : ∀ e ∈ edges vs, e.1 ≠ e.2) (hc : ClearCorners (vs.map Vec2.exact))
    (ops : List (PolyOp Double)) (hops : ∀ op ∈ ops, PlainRead op) (p : Vec2 Double) (hp : Moderate p.exact)
    (hs : ClearSight (vs.map Vec2.exact) p.exact) (ho : ¬ InHull (vs.map Vec2.exact) p.exact)
    (hl : vs.length ≤ 20 ∨ ∀ e ∈ edges (vs.map Vec2.exact), side e.1 e.2 p.exact ≠ 0) :
    ∃ s l r, Polygon.new vs = .ok s ∧ ((s.after eps ops).tangentsToPoint p).1 = .ok (l, r) ∧
      LeftTangent (vs.map Vec2.exact) p.exact l.exact ∧ RightTangent (vs.map Vec2.exact) p.exact r.exact := by
  obtain ⟨s, t, hs', ht, -, hx, -, -, -, hT, -⟩ := C77_queries eps 0 vs h4 hm hd hc none none ops hops
  have hans := hT p hp (by rw [hx]; exact hs)
  have key : ∃ l r, ((t.after 0 (ops.map PolyOp.exact)).tangentsToPoint p.exact).1 = .ok (l, r) ∧
      LeftTangent (vs.map Vec2.exact) p.exact l ∧ RightTangent (vs.map Vec2.exact) p.exact r := by
    rcases hl with hl | hl
    · have := C58_small 0 _ t ht (ops.map PolyOp.exact) p.exact (by rw [hx, List.length_map]; exact hl) (by rw [hx]; exact ho)
      rwa [hx] at this
    · obtain ⟨l, r, e, hL, hR⟩ := C58_tangents_partial 0 _ t ht (ops.map PolyOp.exact) p.exact (by rw [hx]; exact ho)
        (by rw [hx]; exact fun e he f _ _ h => hl e he h.1)
      rw [hx] at hL hR
      exact ⟨l, r, e, hL, hR fun e he h => absurd h (hl e he)⟩
  obtain ⟨l, r, e, hL, hR⟩ := key
  rw [e] at hans
  cases hf : ((s.after eps ops).tangentsToPoint p).1 with
  | error x => rw [hf] at hans; cases hans
  | ok lr =>
    rw [hf] at hans
    simp only [Except.map, Except.ok.injEq, Prod.mk.injEq] at hans
    exact ⟨s, lr.1, lr.2, hs', hf, by rw [← hans.1]; exact hL, by rw [← hans.2]; exact hR⟩

/-- **C77** In double precision a new polygon (any corners) contains a point that is clear of the edges exactly when the
winding number of the edges around the point, computed exactly, is not zero. -/
theorem C77_contains (eps : Double) (vs : List (Vec2 Double)) (h4 : 4 ≤ vs.length) (hm : ∀ v ∈ vs, Moderate v.exact)
    (p : PyPoint Double) (hp : Moderate p.toVec.exact) (hc : ClearPoint (vs.map Vec2.exact) p.toVec.exact) :
    ∃ s, Polygon.new vs = .ok s ∧ (s.containsPoint eps p).1 = .ok (winding (vs.map Vec2.exact) p.toVec.exact != 0) := by
  have hm1 : vs.map Vec2.copy = vs := List.map_id'' Vec2.copy_fl vs
  have hl : ¬ vs.length < 3 := by omega
  refine ⟨Polygon.fromPoints vs, ?_, ?_⟩
  · unfold Polygon.new
    simp only [hm1, hl, if_false]
    rfl
  · rw [← ok_fresh_contains h4 eps (1 : ℚ) p (.vec p.toVec.exact) rfl
      (edgeOk_of_clear (fun v hv => modV_of (hm v hv)) (modV_of hp) hc)]
    exact C48_winding (1 : ℚ) (vs.map Vec2.exact) (by simpa using h4) (.vec p.toVec.exact)

/-- A horizontal distance from the edges makes a point clear of them. -/
theorem margin_clear {M : ℚ} (hM : 1 / 2 ^ 500 ≤ M) {vs : List (Vec2 Double)} {p : PyPoint Double}
    (hm : ∀ v ∈ p.toVec :: vs, |v.x.val| ≤ M ∧ |v.y.val| ≤ M)
    (hh : ∀ e ∈ edges vs, e.1.y ≠ e.2.y → 1 / 2 ^ 500 ≤ |e.2.y.val - e.1.y.val|)
    (hc : ∀ e ∈ edges (vs.map Vec2.exact), Spans e p.toVec.exact →
      M / 2 ^ 48 ≤ |p.toVec.exact.x - crossX e.1 e.2 p.toVec.exact.y|) : ClearPoint (vs.map Vec2.exact) p.toVec.exact := by
  intro e he hs
  have hfar := hc e he hs
  rw [edges_map_exact] at he
  obtain ⟨f, hf, rfl⟩ := List.mem_map.mp he
  have hmem := edges_mem hf
  have m1 := (hm f.1 (List.mem_cons_of_mem _ hmem.1)).1
  have m2 := (hm f.2 (List.mem_cons_of_mem _ hmem.2)).1
  have m3 := (hm p.toVec List.mem_cons_self).1
  have hne : f.1.y ≠ f.2.y := by
    intro heq
    rcases hs with ⟨h1, h2⟩ | ⟨h1, h2⟩ <;> simp only [exact_y, heq] at h1 h2 <;> exact absurd h1 (not_lt.mpr h2)
  have hhh := hh f hf hne
  have d1 : |f.2.x.val - f.1.x.val| ≤ 2 * M := (abs_sub _ _).trans (by linarith)
  have d2 : |p.toVec.x.val - f.1.x.val| ≤ 2 * M := (abs_sub _ _).trans (by linarith)
  have d3 : |p.toVec.x.val - f.2.x.val| ≤ 2 * M := (abs_sub _ _).trans (by linarith)
  have d4 : max |p.toVec.x.val - f.1.x.val| |p.toVec.x.val - f.2.x.val| ≤ 2 * M := max_le d2 d3
  have hq : (1 : ℚ) / 2 ^ 1074 / |f.2.y.val - f.1.y.val| ≤ 1 / 2 ^ 574 := by
    rw [div_le_iff₀ (lt_of_lt_of_le (by positivity) hhh)]
    calc (1 : ℚ) / 2 ^ 1074 = 1 / 2 ^ 574 * (1 / 2 ^ 500) := by rw [one_div_mul_one_div, ← pow_add]
      _ ≤ _ := mul_le_mul_of_nonneg_left hhh (by positivity)
  have hs' : (1 : ℚ) / 2 ^ 574 < 1 / 2 ^ 49 * M := by
    calc (1 : ℚ) / 2 ^ 574 < 1 / 2 ^ 549 := one_div_lt_one_div_of_lt (by positivity) (pow_lt_pow_right₀ (by norm_num) (by norm_num))
      _ = 1 / 2 ^ 49 * (1 / 2 ^ 500) := by rw [one_div_mul_one_div, ← pow_add]
      _ ≤ _ := mul_le_mul_of_nonneg_left hM (by positivity)
  unfold FarFrom
  simp only [exact_x, exact_y] at hfar ⊢
  refine lt_of_lt_of_le ?_ hfar
  generalize (1 : ℚ) / 2 ^ 1074 / |f.2.y.val - f.1.y.val| = g at hq ⊢
  generalize (1 : ℚ) / 2 ^ 574 = g' at hq hs'
  have h51 := mul_le_mul_of_nonneg_left (add_le_add d1 d4) (show (0 : ℚ) ≤ 1 / 2 ^ 51 by positivity)
  have e51 : (1 : ℚ) / 2 ^ 51 * (2 * M + 2 * M) = 1 / 2 ^ 49 * M := by ring
  have e48 : M / 2 ^ 48 = 1 / 2 ^ 49 * M + 1 / 2 ^ 49 * M := by ring
  rw [e51] at h51
  rw [e48]
  linarith

/-- **C77** For users: with all coordinates at most `M` in absolute value, a horizontal distance of `M / 2 ^ 48` (about
`4e-15 M`) from all edges at the height of the point is enough. (The edges that are not horizontal are supposed not to be
tiny: at least `2 ^ -500` high.) -/
theorem C77_margin (eps : Double) (M : ℚ) (hM : 1 / 2 ^ 500 ≤ M) (hM' : M ≤ 2 ^ 510) (vs : List (Vec2 Double)) (h4 : 4 ≤ vs.length)
    (p : PyPoint Double) (hm : ∀ v ∈ p.toVec :: vs, |v.x.val| ≤ M ∧ |v.y.val| ≤ M)
    (hh : ∀ e ∈ edges vs, e.1.y ≠ e.2.y → 1 / 2 ^ 500 ≤ |e.2.y.val - e.1.y.val|)
    (hc : ∀ e ∈ edges (vs.map Vec2.exact), Spans e p.toVec.exact →
      M / 2 ^ 48 ≤ |p.toVec.exact.x - crossX e.1 e.2 p.toVec.exact.y|) :
    ∃ s, Polygon.new vs = .ok s ∧ (s.containsPoint eps p).1 = .ok (winding (vs.map Vec2.exact) p.toVec.exact != 0) := by
  have hm' : ∀ v ∈ p.toVec :: vs, Moderate v.exact := fun v hv => ⟨(hm v hv).1.trans hM', (hm v hv).2.trans hM'⟩
  exact C77_contains eps vs h4 (fun v hv => hm' v (List.mem_cons_of_mem _ hv)) p (hm' _ List.mem_cons_self) (margin_clear hM hm hh hc)

/-! ### The hypotheses are met -/

/-- A slanted pentagon, not convex, whose coordinates are rounded. -/
def slanted : List (Vec2 Double) :=
  [dvec (1 / 10) (1 / 3), dvec (31 / 10) (7 / 9), dvec (22 / 7) (25 / 8), dvec (3 / 2) (11 / 10), dvec (-2 / 3) (26 / 9)]

private instance : DecidableEq (Vec2 ℚ) := fun a b => decidable_of_iff (a.x = b.x ∧ a.y = b.y) Vec2.ext_iff.symm

/-- It meets the hypotheses of `C77_queries`, `C77_convex` and `C77_contains`, -/
example : 4 ≤ slanted.length ∧ (∀ v ∈ slanted, Moderate v.exact) ∧ (∀ e ∈ edges slanted, e.1 ≠ e.2) ∧
    ClearCorners (slanted.map Vec2.exact) ∧ ClearSides (slanted.map Vec2.exact) := by
  refine ⟨by decide, by unfold Moderate; decide +kernel, ?_, by unfold ClearCorners ClearCross; decide +kernel,
    by unfold ClearSides ClearCross; decide +kernel⟩
  have h : ∀ e ∈ edges slanted, e.1.x.val ≠ e.2.x.val := by decide +kernel
  intro e he heq
  exact h e he (by rw [heq])

/-- with points inside and outside, `1e-14` from an edge (at the height 1/2 the right edge is at about 3.108). -/
example : ∀ p ∈ [dvec 2 1, dvec 1 2, dvec (1 / 10 + 28 / 9 + 1 / 10 ^ 14) (7 / 9 + 1 / 1000), dvec (-5) 1],
    Moderate p.exact ∧ ClearPoint (slanted.map Vec2.exact) p.exact := by
  unfold Moderate ClearPoint Spans FarFrom; decide +kernel

/-- Points that see the pentagon clearly, one of them outside the hull (`C77_queries`, `C77_tangents`). -/
example : ∀ p ∈ [dvec (-1) (-1), dvec 5 1, dvec (3 / 2) 3], Moderate p.exact ∧ ClearSight (slanted.map Vec2.exact) p.exact := by
  unfold Moderate ClearSight ClearCross; decide +kernel

example : ¬ InHull (slanted.map Vec2.exact) (dvec (-1) (-1)).exact := outside_of (-1) (-1) (by decide +kernel)

/-- 23 points of a parabola (more than 20 vertices, so that the binary search is used), and a point below it. -/
def parabola23d : List (Vec2 Double) := (List.range 23).map fun (i : Nat) => dvec i (i * i)

example : 4 ≤ parabola23d.length ∧ (∀ v ∈ parabola23d, Moderate v.exact) ∧ (∀ e ∈ edges parabola23d, e.1.x.val ≠ e.2.x.val) ∧
    ClearCorners (parabola23d.map Vec2.exact) ∧ Moderate (dvec (7 / 2) (-6)).exact ∧
    ClearSight (parabola23d.map Vec2.exact) (dvec (7 / 2) (-6)).exact ∧
    ∀ e ∈ edges (parabola23d.map Vec2.exact), side e.1 e.2 (dvec (7 / 2) (-6)).exact ≠ 0 := by
  unfold Moderate ClearSight ClearCorners ClearCross; decide +kernel

example : ¬ InHull (parabola23d.map Vec2.exact) (dvec (7 / 2) (-6)).exact := outside_of 0 (-1) (by decide +kernel)

/-- `C77_margin` with `M = 4`. -/
example : (1 : ℚ) / 2 ^ 500 ≤ 4 ∧ (4 : ℚ) ≤ 2 ^ 510 ∧ (∀ v ∈ dvec 2 1 :: slanted, |v.x.val| ≤ 4 ∧ |v.y.val| ≤ 4) ∧
    (∀ e ∈ edges slanted, 1 / 2 ^ 500 ≤ |e.2.y.val - e.1.y.val|) ∧
    ∀ e ∈ edges (slanted.map Vec2.exact), Spans e (dvec 2 1).exact → 4 / 2 ^ 48 ≤ |(dvec 2 1).exact.x - crossX e.1 e.2 (dvec 2 1).exact.y| := by
  unfold Spans; decide +kernel

/-- Some distance is needed: this point is 1 to the left of a quadrilateral with coordinates up to `2 ^ 61`, and the
quadrilateral contains it in double precision (`C69_violated`). -/
example : (∀ v ∈ dart, |v.x.val| ≤ 2 ^ 61 ∧ |v.y.val| ≤ 2 ^ 61) ∧ ¬ ClearPoint (dart.map Vec2.exact) (dvec 0 1).exact := by
  unfold ClearPoint Spans FarFrom; decide +kernel

end Planar
