import Verif.Lemmas.GridTri
import Verif.Spec.Double
import Verif.Props.Winding
import Verif.Props.Hull
import Verif.Props.Simple
/-
C70: coordinates on a grid. When all coordinates are integers (or multiples of one power of two) of moderate size, the
answers of planar in double precision are the answers of exact arithmetic.

`Double` is IEEE binary64 with gradual underflow and overflow to infinity (Spec/Double). The bounds on the step `2 ^ e` are
such that nothing overflows, so that the invalid operations (inf - inf and so on), which are not in `Double`, do not occur.
-/
set_option linter.unusedSectionVars false
namespace Planar
open Spec

/-- Both coordinates are multiples of `2 ^ e`, at most `N` of them. -/
def GridPoint (e N : ℤ) (v : Vec2 Double) : Prop :=
  ∃ m n : ℤ, |m| ≤ N ∧ |n| ≤ N ∧ v.x.val = m * 2 ^ e ∧ v.y.val = n * 2 ^ e

/-- The operations of a history that stay on the grid: vertices of the grid are assigned, points of the grid are asked
for. Reading the centroid (which divides) and in-place transforms are left out. -/
def GridOp (e N : ℤ) : PolyOp Double → Prop
  | .setItem _ v => GridPoint e N v
  | .imul _ => False
  | .isConvex => True
  | .isSimple => True
  | .centroid => False
  | .boundingBox => True
  | .contains p => GridPoint e N p.toVec
  | .tangents p => GridPoint e N p

/-- The same point with its exact coordinates. -/
def PyPoint.exact {F : Type} [Field F] [LinearOrder F] {R : Rounding F} : PyPoint (Fl R) → PyPoint F
  | .vec v => .vec v.exact
  | .tup x y => .tup x.val y.val

/-- The same operation in exact arithmetic. -/
def PolyOp.exact {F : Type} [Field F] [LinearOrder F] {R : Rounding F} : PolyOp (Fl R) → PolyOp F
  | .setItem i v => .setItem i v.exact
  | .imul T => .imul ⟨T.a.val, T.b.val, T.c.val, T.d.val, T.e.val, T.f.val⟩
  | .isConvex => .isConvex
  | .isSimple => .isSimple
  | .centroid => .centroid
  | .boundingBox => .boundingBox
  | .contains p => .contains p.exact
  | .tangents p => .tangents p.exact

theorem double_exact (e N : ℤ) (h1 : -1074 ≤ e) (h2 : e ≤ 970) (hN : N ≤ 2 ^ 53) : Exact double N (2 ^ e) := by
  intro n hn
  exact double_float n e h1 h2 (hn.trans hN)

theorem double_fine {e : ℤ} (h1 : -537 ≤ e) (h2 : e ≤ 485) : FineGrid double (2 ^ e) (2 ^ 25) where
  one := double_exact e _ (by omega) (by omega) (by norm_num)
  two := by rw [← zpow_add₀ (by norm_num)]; exact double_exact _ _ (by omega) (by omega) (by norm_num)
  pos := by norm_num

theorem two_inv (e : ℤ) : (1 : ℚ) / (128 * ((2 ^ 11 : ℤ) : ℚ) * ((2 ^ 11 : ℤ) : ℚ) * ((2 ^ 11 : ℤ) : ℚ) * ((2 ^ 11 : ℤ) : ℚ) *
    ((2 : ℚ) ^ e * 2 ^ e * (2 ^ e * 2 ^ e))) = ((1 : ℤ) : ℚ) * 2 ^ (-51 - 4 * e) := by
  have e1 : ((2 : ℚ) ^ e * 2 ^ e * (2 ^ e * 2 ^ e)) = 2 ^ (4 * e) := by
    rw [← zpow_add₀ (by norm_num), ← zpow_add₀ (by norm_num)]; congr 1; ring
  have e2 : (128 * ((2 ^ 11 : ℤ) : ℚ) * ((2 ^ 11 : ℤ) : ℚ) * ((2 ^ 11 : ℤ) : ℚ) * ((2 ^ 11 : ℤ) : ℚ)) = 2 ^ (51 : ℤ) := by
    norm_num
  rw [e1, e2, ← zpow_add₀ (by norm_num), one_div, ← zpow_neg, Int.cast_one, one_mul]; congr 1; ring

theorem double_hull {e : ℤ} (h1 : -255 ≤ e) (h2 : e ≤ 242) : HullGrid double (2 ^ e) (2 ^ 11) where
  one := double_exact e _ (by omega) (by omega) (by norm_num)
  two := by rw [← zpow_add₀ (by norm_num)]; exact double_exact _ _ (by omega) (by omega) (by norm_num)
  four := by
    rw [← zpow_add₀ (by norm_num), ← zpow_add₀ (by norm_num)]
    exact double_exact _ _ (by omega) (by omega) (by norm_num)
  pos := by norm_num
  up := by positivity
  inv := by
    rw [two_inv, double_float 1 _ (by omega) (by omega) (by norm_num)]; positivity
  small := by
    have e1 : ((2 : ℚ) ^ e * 2 ^ e * (2 ^ e * 2 ^ e)) * (((1 : ℤ) : ℚ) * 2 ^ (-51 - 4 * e)) = ((1 : ℤ) : ℚ) * 2 ^ (-51 : ℤ) := by
      rw [Int.cast_one, one_mul, one_mul, ← zpow_add₀ (by norm_num), ← zpow_add₀ (by norm_num), ← zpow_add₀ (by norm_num)]
      congr 1; ring
    rw [two_inv, double_float 1 _ (by omega) (by omega) (by norm_num), e1,
      double_float 1 _ (by norm_num) (by norm_num) (by norm_num)]
    positivity

theorem GridPoint.onGrid {e N : ℤ} {v : Vec2 Double} (h : GridPoint e N v) : OnGrid ((2 : ℚ) ^ e) N v := by
  obtain ⟨m, n, hm, hn, hx, hy⟩ := h
  exact ⟨⟨m, hm, hx⟩, ⟨n, hn, hy⟩⟩

theorem PyPoint.toVec_exact {F : Type} [Field F] [LinearOrder F] [IsStrictOrderedRing F] {R : Rounding F} (p : PyPoint (Fl R)) : p.exact.toVec = p.toVec.exact := by cases p <;> rfl

/-- **C70** queries: for a polygon with at least four vertices, all on the grid, with any declared flags, after any
history of grid operations: the flags, the bounding box, the answers about points of the grid and the tangents from
points of the grid computed in double precision are those computed without any rounding. -/
theorem C70_queries (e : ℤ) (he1 : -537 ≤ e) (he2 : e ≤ 485) (eps : Double) (eps' : ℚ) (vs : List (Vec2 Double)) (h4 : 4 ≤ vs.length)
    (hv : ∀ v ∈ vs, GridPoint e (2 ^ 25) v) (convex simple : Option Bool) (ops : List (PolyOp Double))
    (hops : ∀ op ∈ ops, GridOp e (2 ^ 25) op) :
    ∃ s t, Polygon.new vs convex simple = .ok s ∧ Polygon.new (vs.map Vec2.exact) convex simple = .ok t ∧
      let f := s.after eps ops
      let x := t.after eps' (ops.map PolyOp.exact)
      x.verts = f.verts.map Vec2.exact ∧ f.isConvex.1 = x.isConvex.1 ∧ f.isSimple.1 = x.isSimple.1 ∧
      x.boundingBox.1 = f.boundingBox.1.map Box.exact ∧
      ∀ p, GridPoint e (2 ^ 25) p.toVec → (f.containsPoint eps p).1 = (x.containsPoint eps' p.exact).1 ∧
        (x.tangentsToPoint p.toVec.exact).1 =
          (f.tangentsToPoint p.toVec).1.map fun lr => (lr.1.exact, lr.2.exact) := by
  have hG := double_fine he1 he2
  obtain ⟨s, t, hs, ht, hS⟩ := sim_new hG (fun v hv' => (hv v hv').onGrid) h4 convex simple
  refine ⟨s, t, hs, ht, ?_⟩
  have key : ∀ (ops : List (PolyOp Double)), (∀ op ∈ ops, GridOp e (2 ^ 25) op) → ∀ s t, Sim ((2 : ℚ) ^ e) (2 ^ 25) s t →
      Sim ((2 : ℚ) ^ e) (2 ^ 25) (s.after eps ops) (t.after eps' (ops.map PolyOp.exact)) := by
    intro ops
    induction ops with
    | nil => intro _ s t h; exact h
    | cons op ops ih =>
      intro h s t hS
      have hop := h op List.mem_cons_self
      refine ih (fun o ho => h o (List.mem_cons_of_mem _ ho)) _ _ ?_
      cases op with
      | setItem i v => exact (sim_setItem hS i hop.onGrid).2
      | imul T => exact hop.elim
      | isConvex => exact (sim_isConvex hG hS).2
      | isSimple => exact (sim_isSimple hG hS).2
      | centroid => exact hop.elim
      | boundingBox => exact (sim_boundingBox hS).2
      | contains p => exact (sim_contains hG hS eps eps' p p.exact p.toVec_exact (GridPoint.onGrid hop)).2
      | tangents p => exact (sim_tangents hG hS (GridPoint.onGrid hop)).2
  have hE := key ops hops s t hS
  refine ⟨hE.verts, (sim_isConvex hG hE).1.symm, (sim_isSimple hG hE).1.symm, (sim_boundingBox hE).1, ?_⟩
  intro p hp
  exact ⟨(sim_contains hG hE eps eps' p p.exact p.toVec_exact hp.onGrid).1.symm, (sim_tangents hG hE hp.onGrid).1⟩

/-- **C70** hulls: the convex hull of points of the grid (at most 2048 steps from the origin) computed in double precision
is the hull computed without any rounding, when Python's set gives the points in the same order (the order depends only
on the values of the coordinates). -/
theorem C70_hull (e : ℤ) (he1 : -255 ≤ e) (he2 : e ≤ 242)
    (order : List (Vec2 Double) → List (Vec2 Double)) (order' : List (Vec2 ℚ) → List (Vec2 ℚ))
    (hp : ∀ l, (order l).Perm l) (ho : ∀ l : List (Vec2 Double), order' (l.map Vec2.exact) = (order l).map Vec2.exact)
    (points : List (Vec2 Double)) (h : ∀ v ∈ points, GridPoint e (2 ^ 11) v) :
    (Hull.convexHull order' (points.map Vec2.exact)).map Polygon.verts =
      (Hull.convexHull order points).map fun s => s.verts.map Vec2.exact := by
  have hq := (double_hull he1 he2).quickHull order order' hp ho points fun v hv => (h v hv).onGrid
  unfold Hull.convexHull
  rw [hq]
  cases Hull.quickHull order points with
  | error err => rfl
  | ok l =>
    have hm1 : l.map Vec2.copy = l := List.map_id'' Vec2.copy_fl l
    have hm2 : (l.map Vec2.exact).map Vec2.copy = l.map Vec2.exact := List.map_id'' Vec2.copy_fl _
    simp only [Except.map, bind, Except.bind, Polygon.new, hm1, hm2, List.length_map]
    by_cases h3 : l.length < 3
    · simp only [h3, if_true]
    · by_cases h4 : 3 < l.length <;> simp [h3, h4, Polygon.cleared]

/-- **C70** consequences: a new polygon with at least four vertices on the grid contains a point of the grid, in double
precision, exactly when its winding number around the point is not zero; -/
theorem C70_winding (e : ℤ) (he1 : -537 ≤ e) (he2 : e ≤ 485) (eps : Double) (vs : List (Vec2 Double)) (h4 : 4 ≤ vs.length)
    (hv : ∀ v ∈ vs, GridPoint e (2 ^ 25) v) (p : PyPoint Double) (hp : GridPoint e (2 ^ 25) p.toVec) :
    ∃ s, Polygon.new vs = .ok s ∧ (s.containsPoint eps p).1 = .ok (winding (vs.map Vec2.exact) p.toVec.exact != 0) := by
  obtain ⟨s, t, hs, ht, h⟩ := C70_queries e he1 he2 eps 1 vs h4 hv none none [] (by simp)
  refine ⟨s, hs, ?_⟩
  obtain ⟨t', ht', _, hw⟩ := C48_winding_new (1 : ℚ) (vs.map Vec2.exact) (by simpa using h4) p.exact
  rw [ht] at ht'
  cases ht'
  rw [PyPoint.toVec_exact] at hw
  rw [← hw]
  exact (h.2.2.2.2 p hp).1

/-- and the hull of at most seven points of the grid that are not on a line is correct: its vertices are among the
points, it is convex, and no point is outside of it. -/
theorem C70_small_hull (e : ℤ) (he1 : -255 ≤ e) (he2 : e ≤ 242)
    (points : List (Vec2 Double)) (h : ∀ v ∈ points, GridPoint e (2 ^ 11) v)
    (hflat : ¬ Flat (points.map Vec2.exact)) (h7 : points.length ≤ 7) :
    ∃ s, Hull.convexHull id points = .ok s ∧ (∀ v ∈ s.verts, v ∈ points) ∧
      (∀ p ∈ points, InHull (s.verts.map Vec2.exact) p.exact) ∧ Convex (s.verts.map Vec2.exact) := by
  obtain ⟨t, ht, hv, hin, _, hc⟩ := C57_small id (fun l => List.Perm.refl l) (points.map Vec2.exact) hflat (by simpa using h7)
  have hh := C70_hull e he1 he2 id id (fun l => List.Perm.refl l) (fun l => rfl) points h
  rw [ht] at hh
  cases hs : Hull.convexHull id points with
  | error err => rw [hs] at hh; cases hh
  | ok s =>
    rw [hs] at hh
    have hh' : t.verts = s.verts.map Vec2.exact := by simpa [Except.map] using hh
    refine ⟨s, rfl, ?_, ?_, by rw [← hh']; exact hc⟩
    · intro v hvs
      obtain ⟨w, hw, he⟩ := List.mem_map.mp (hv v.exact (by rw [hh']; exact List.mem_map_of_mem hvs))
      rw [← exact_inj.mp he]; exact hw
    · intro p hp
      rw [← hh']
      exact hin p.exact (List.mem_map_of_mem hp)

/-! ### triangles -/

theorem roundPos_err {p : ℕ} (hp : 1 ≤ p) {x : ℚ} (hx : 0 < x) :
    (1 - 2 / 2 ^ p) * x ≤ roundPos p x ∧ roundPos p x ≤ (1 + 2 / 2 ^ p) * x := by
  have hu := ulp_pos (F := ℚ) p x
  have h1 := Int.zpow_log_le_self (b := 2) (by norm_num) hx
  push_cast at h1
  rw [← zpow_ulp' hp] at h1
  have h2 : ulp p x ≤ 2 / 2 ^ p * x := by
    have e : (2 : ℚ) ^ p = 2 * 2 ^ (p - 1) := by
      rw [← pow_succ']; congr 1; omega
    rw [e, div_mul_eq_mul_div, le_div_iff₀ (by positivity)]
    linarith
  have hz : x / ulp p x * ulp p x = x := div_mul_cancel₀ _ hu.ne'
  have hc := nearestEven_cases (x / ulp p x)
  have f1 := Int.floor_le (x / ulp p x)
  have f2 := Int.lt_floor_add_one (x / ulp p x)
  unfold roundPos
  have b1 : x / ulp p x - 1 ≤ (nearestEven (x / ulp p x) : ℚ) := by
    rcases hc with h | h <;> rw [h] <;> push_cast <;> linarith
  have b2 : (nearestEven (x / ulp p x) : ℚ) ≤ x / ulp p x + 1 := by
    rcases hc with h | h <;> rw [h] <;> push_cast <;> linarith
  have m1 := mul_le_mul_of_nonneg_right b1 hu.le
  have m2 := mul_le_mul_of_nonneg_right b2 hu.le
  rw [sub_mul, hz, one_mul] at m1
  rw [add_mul, hz, one_mul] at m2
  constructor <;> linarith

/-- Away from underflow and overflow doubles have a small relative error. -/
theorem double_err {x : ℚ} (h1 : 2 ^ (-1022 : ℤ) ≤ x) (h2 : x ≤ 2 ^ (1022 : ℤ)) :
    (1 - 2 / 2 ^ 53) * x ≤ double.rnd x ∧ double.rnd x ≤ (1 + 2 / 2 ^ 53) * x := by
  have hx : 0 < x := lt_of_lt_of_le (zpow_pos (by norm_num) _) h1
  have hlog : (-1022 : ℤ) ≤ Int.log 2 x := (Int.zpow_le_iff_le_log (b := 2) (by norm_num) hx).mp (by exact_mod_cast h1)
  have hr : roundMin 53 (-1074) x = roundPos 53 x := by
    rw [roundMin_pos hx]
    unfold roundPosMin roundPos ulpMin ulp
    rw [max_eq_left (by push_cast; omega)]
  have hb := roundPos_err (p := 53) (by norm_num) hx
  have hs : double.rnd x = roundPos 53 x := by
    rw [double_rnd, hr]
    refine saturate_of_lt ?_
    rw [abs_of_pos (roundPos_pos (by norm_num) hx)]
    have h3 : (1 + 2 / 2 ^ 53 : ℚ) * x ≤ 2 * 2 ^ (1022 : ℤ) := mul_le_mul (by norm_num) h2 hx.le (by norm_num)
    have h4 : (2 : ℚ) * 2 ^ (1022 : ℤ) = 2 ^ 1023 := by
      rw [show (1022 : ℤ) = ((1022 : ℕ) : ℤ) from rfl, zpow_natCast, ← pow_succ']
    rw [h4] at h3
    exact (hb.2.trans h3).trans_lt (pow_lt_pow_right₀ (by norm_num) (by norm_num))
  rw [hs]; exact hb

theorem double_tri {e : ℤ} (h1 : -255 ≤ e) (h2 : e ≤ 242) : TriGrid double (2 ^ e) (2 ^ 11) where
  toHullGrid := double_hull h1 h2
  err := by
    refine ⟨2 / 2 ^ 53, by norm_num, by norm_num, ?_, ?_, by norm_num, by norm_num⟩
    · intro x hx1 hx2
      rw [two_inv, Int.cast_one, one_mul] at hx1
      have e1 : (1 : ℚ) / ((2 : ℚ) ^ e * 2 ^ e * (2 ^ e * 2 ^ e)) = 2 ^ (-4 * e) := by
        rw [← zpow_add₀ (by norm_num), ← zpow_add₀ (by norm_num), one_div, ← zpow_neg]; congr 1; ring
      rw [e1] at hx2
      exact double_err ((zpow_le_zpow_right₀ (by norm_num) (by omega)).trans hx1)
        (hx2.trans (zpow_le_zpow_right₀ (by norm_num) (by omega)))
    · intro x hx1 hx2
      refine double_err (le_trans ?_ hx1) (hx2.trans ?_)
      · have : (1 : ℚ) / (1024 * ((2 ^ 11 : ℤ) : ℚ) * ((2 ^ 11 : ℤ) : ℚ) * ((2 ^ 11 : ℤ) : ℚ) * ((2 ^ 11 : ℤ) : ℚ)) = 2 ^ (-54 : ℤ) := by
          norm_num
        rw [this]; exact zpow_le_zpow_right₀ (by norm_num) (by norm_num)
      · have : (1024 * ((2 ^ 11 : ℤ) : ℚ) * ((2 ^ 11 : ℤ) : ℚ) * ((2 ^ 11 : ℤ) : ℚ) * ((2 ^ 11 : ℤ) : ℚ)) = 2 ^ (54 : ℤ) := by
          norm_num
        rw [this]; exact zpow_le_zpow_right₀ (by norm_num) (by norm_num)

/-- **C70** triangles: with EPSILON not larger than the step of the grid, the double precision answer about a point of
the grid is the exact one. (Partial: the point is not on the line through a lowest and a highest vertex; on that line it
can be wrong both ways, `C70_violated`.) -/
theorem C70_triangle_partial (e : ℤ) (he1 : -255 ≤ e) (he2 : e ≤ 242) (eps : Double) (eps' : ℚ) (he : (eps * eps).val ≤ 2 ^ e * 2 ^ e)
    (he' : eps' * eps' ≤ 2 ^ e * 2 ^ e) (vs : List (Vec2 Double)) (h3 : vs.length = 3)
    (hv : ∀ v ∈ vs, GridPoint e (2 ^ 11) v) (p : PyPoint Double) (hp : GridPoint e (2 ^ 11) p.toVec)
    (hline : ∀ lo ∈ vs, ∀ hi ∈ vs, lo ≠ hi → (∀ v ∈ vs, lo.y ≤ v.y ∧ v.y ≤ hi.y) →
      side lo.exact hi.exact p.toVec.exact ≠ 0) :
    ((Polygon.fromPoints vs).containsPoint eps p).1 =
      ((Polygon.fromPoints (vs.map Vec2.exact)).containsPoint eps' p.exact).1 := by
  refine ((double_tri he1 he2).triangle eps eps' he he' h3 (fun v h => (hv v h).onGrid) p p.exact ?_ hline).symm
  cases p with
  | vec v => exact .inl ⟨v, rfl, rfl, hp.onGrid⟩
  | tup a b => exact .inr ⟨a, b, a.val, b.val, rfl, rfl⟩

/-! ### concrete cases -/

/-- The double nearest to a rational, and the vector of two of them. -/
def dbl (x : ℚ) : Double := Fl.round double x
def dvec (x y : ℚ) : Vec2 Double := ⟨dbl x, dbl y⟩

theorem gridPoint_dvec {e N m n : ℤ} (h1 : -1074 ≤ e) (h2 : e ≤ 970) (hm : |m| ≤ N) (hn : |n| ≤ N) (hN : N ≤ 2 ^ 53) :
    GridPoint e N (dvec (m * 2 ^ e) (n * 2 ^ e)) :=
  ⟨m, n, hm, hn, double_float m e h1 h2 (hm.trans hN), double_float n e h1 h2 (hn.trans hN)⟩

private theorem gp (m n : ℤ) {N : ℤ} {x y : ℚ} (hx : x = m) (hy : y = n) (hm : |m| ≤ N) (hn : |n| ≤ N) (hN : N ≤ 2 ^ 53) :
    GridPoint 0 N (dvec x y) := by
  have := gridPoint_dvec (e := 0) (by norm_num) (by norm_num) hm hn hN
  rw [zpow_zero, mul_one, mul_one, ← hx, ← hy] at this
  exact this

/-- The answer of a query as a value that can be compared. -/
private def ans (r : Py Bool) : Option Bool := match r with | .ok b => some b | .error _ => none

/-- The property fails on the line through the lowest and the highest vertex of a triangle: with coordinates not larger
than nine a point on an edge is inside in double precision and outside exactly, and another one the other way round. -/
theorem C70_violated :
    (GridPoint 0 9 (dvec 0 0) ∧ GridPoint 0 9 (dvec 0 1) ∧ GridPoint 0 9 (dvec 6 6) ∧ GridPoint 0 9 (dvec 1 1) ∧
      ((Polygon.fromPoints [dvec 0 0, dvec 0 1, dvec 6 6]).containsPoint (dbl (1 / 100000)) (.vec (dvec 1 1))).1 = .ok true ∧
      ((Polygon.fromPoints [(dvec 0 0).exact, (dvec 0 1).exact, (dvec 6 6).exact]).containsPoint (1 / 100000)
        (.vec (dvec 1 1).exact)).1 = .ok false) ∧
    (GridPoint 0 9 (dvec 7 1) ∧ GridPoint 0 9 (dvec 0 9) ∧ GridPoint 0 9 (dvec 0 2) ∧
      ((Polygon.fromPoints [dvec 0 0, dvec 7 1, dvec 0 9]).containsPoint (dbl (1 / 100000)) (.vec (dvec 0 2))).1 = .ok false ∧
      ((Polygon.fromPoints [(dvec 0 0).exact, (dvec 7 1).exact, (dvec 0 9).exact]).containsPoint (1 / 100000)
        (.vec (dvec 0 2).exact)).1 = .ok true) := by
  have back : ∀ (r : Py Bool) (b : Bool), ans r = some b → r = .ok b := by
    intro r b h
    cases r with
    | ok c => simp only [ans, Option.some.injEq] at h; rw [h]
    | error e => simp [ans] at h
  refine ⟨⟨?_, ?_, ?_, ?_, back _ _ (by decide +kernel), back _ _ (by decide +kernel)⟩,
    ?_, ?_, ?_, back _ _ (by decide +kernel), back _ _ (by decide +kernel)⟩
  · exact gp 0 0 (by norm_num) (by norm_num) (by norm_num) (by norm_num) (by norm_num)
  · exact gp 0 1 (by norm_num) (by norm_num) (by norm_num) (by norm_num) (by norm_num)
  · exact gp 6 6 (by norm_num) (by norm_num) (by norm_num) (by norm_num) (by norm_num)
  · exact gp 1 1 (by norm_num) (by norm_num) (by norm_num) (by norm_num) (by norm_num)
  · exact gp 7 1 (by norm_num) (by norm_num) (by norm_num) (by norm_num) (by norm_num)
  · exact gp 0 9 (by norm_num) (by norm_num) (by norm_num) (by norm_num) (by norm_num)
  · exact gp 0 2 (by norm_num) (by norm_num) (by norm_num) (by norm_num) (by norm_num)

/-- A five sided polygon with coordinates up to a million and a history with an assignment meet the hypotheses of
`C70_queries`. -/
example : ∀ v ∈ [dvec 0 0, dvec 1000000 0, dvec 1000000 999999, dvec 500000 3, dvec (-7) 999999], GridPoint 0 (2 ^ 25) v := by
  intro v hv
  simp only [List.mem_cons, List.not_mem_nil, or_false] at hv
  rcases hv with rfl | rfl | rfl | rfl | rfl
  · exact gp 0 0 (by norm_num) (by norm_num) (by norm_num) (by norm_num) (by norm_num)
  · exact gp 1000000 0 (by norm_num) (by norm_num) (by norm_num) (by norm_num) (by norm_num)
  · exact gp 1000000 999999 (by norm_num) (by norm_num) (by norm_num) (by norm_num) (by norm_num)
  · exact gp 500000 3 (by norm_num) (by norm_num) (by norm_num) (by norm_num) (by norm_num)
  · exact gp (-7) 999999 (by norm_num) (by norm_num) (by norm_num) (by norm_num) (by norm_num)

example : ∀ op ∈ [PolyOp.isConvex, .setItem (-1) (dvec 5 (-5)), .contains (.tup (dbl 3) (dbl 4)), .tangents (dvec 9 9)],
    GridOp 0 (2 ^ 25) op := by
  intro op hop
  simp only [List.mem_cons, List.not_mem_nil, or_false] at hop
  rcases hop with rfl | rfl | rfl | rfl
  · trivial
  · exact gp 5 (-5) (by norm_num) (by norm_num) (by norm_num) (by norm_num) (by norm_num)
  · exact gp 3 4 (by norm_num) (by norm_num) (by norm_num) (by norm_num) (by norm_num)
  · exact gp 9 9 (by norm_num) (by norm_num) (by norm_num) (by norm_num) (by norm_num)

/-- Without the grid rounding does change an answer: a point outside of a quadrilateral is inside in double precision. -/
example : ((Polygon.fromPoints [dvec (2 ^ 60) 0, dvec 1 1, dvec (2 ^ 60) 2, dvec (2 ^ 61) 1]).containsPoint (dbl (1 / 100000))
    (.vec (dvec 0 1))).1 = .ok true := by
  cases h : ((Polygon.fromPoints [dvec (2 ^ 60) 0, dvec 1 1, dvec (2 ^ 60) 2, dvec (2 ^ 61) 1]).containsPoint (dbl (1 / 100000))
    (.vec (dvec 0 1))).1 with
  | ok b =>
    have h2 : ans ((Polygon.fromPoints [dvec (2 ^ 60) 0, dvec 1 1, dvec (2 ^ 60) 2, dvec (2 ^ 61) 1]).containsPoint (dbl (1 / 100000))
      (.vec (dvec 0 1))).1 = some true := by decide +kernel
    rw [h] at h2
    simp only [ans, Option.some.injEq] at h2
    rw [h2]
  | error e =>
    have h2 : ans ((Polygon.fromPoints [dvec (2 ^ 60) 0, dvec 1 1, dvec (2 ^ 60) 2, dvec (2 ^ 61) 1]).containsPoint (dbl (1 / 100000))
      (.vec (dvec 0 1))).1 = some true := by decide +kernel
    rw [h] at h2
    simp [ans] at h2

/-- The hypotheses of `C70_triangle_partial`: a triangle and a point off its long edge; Python's EPSILON and step one. -/
example : (dbl (1 / 100000) * dbl (1 / 100000)).val ≤ (2 : ℚ) ^ (0 : ℤ) * 2 ^ (0 : ℤ) ∧
    (∀ lo ∈ [dvec 0 0, dvec 7 1, dvec 0 9], ∀ hi ∈ [dvec 0 0, dvec 7 1, dvec 0 9], lo ≠ hi →
      (∀ v ∈ [dvec 0 0, dvec 7 1, dvec 0 9], lo.y ≤ v.y ∧ v.y ≤ hi.y) → side lo.exact hi.exact (dvec 1 2).exact ≠ 0) := by
  refine ⟨by decide +kernel, ?_⟩
  intro lo hlo hi hhi hne
  simp only [List.mem_cons, List.not_mem_nil, or_false] at hlo hhi
  rcases hlo with rfl | rfl | rfl <;> rcases hhi with rfl | rfl | rfl <;>
    first | (intro _; decide +kernel) | exact absurd rfl hne

end Planar
