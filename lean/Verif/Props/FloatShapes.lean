import Verif.Spec.NearPoly
import Verif.Lemmas.YNearReal
import Verif.Lemmas.CastPoly
import Verif.Lemmas.Kept
import Verif.Props.FloatClear
import Verif.Props.FloatAffine
import Verif.Props.FloatTrig
import Verif.Props.Equivariance
import Verif.Props.RadialExact
/-
C82: polygons that were computed in double precision (images under transforms, regular polygons) contain the points that the
exact polygons contain, except near the edges.
-/
set_option linter.unusedSectionVars false
namespace Planar
open Spec

theorem toReal_exact (v : Vec2 Double) : toReal v = castVec v.exact := rfl

theorem gap_horizontal (x x' y : ℝ) : gap ⟨x, y⟩ ⟨x', y⟩ = |x - x'| := by
  unfold gap vlen
  simp only [sub_self, mul_zero, add_zero]
  exact Real.sqrt_mul_self_eq_abs _

/-- The exact winding number of rounded vertices, and the distances that the winding test needs. -/
theorem near_margin {d : ℝ} {M : ℚ} (hM : 0 ≤ M) {vs : List (Vec2 Double)} {V : List (Vec2 ℝ)} (hV : MovedBy d vs V) {p : Vec2 Double}
    (hfar : FarFromEdges (d + (M : ℝ) / 2 ^ 48) V (toReal p)) :
    (∀ e ∈ edges (vs.map Vec2.exact), Spans e p.exact → M / 2 ^ 48 ≤ |p.exact.x - crossX e.1 e.2 p.exact.y|) ∧
    winding (vs.map Vec2.exact) p.exact = winding V (toReal p) := by
  have hM' : (0 : ℝ) ≤ (M : ℝ) / 2 ^ 48 := by
    have : (0 : ℝ) ≤ (M : ℝ) := by exact_mod_cast hM
    positivity
  constructor
  · intro e he hs
    rw [edges_map_exact] at he
    obtain ⟨f, hf, rfl⟩ := List.mem_map.mp he
    obtain ⟨E, hE, h1, h2⟩ := forall2_mem (edges_rel hV) hf
    set t : ℝ := ((p.exact.y : ℝ) - f.1.exact.y) / ((f.2.exact.y : ℝ) - f.1.exact.y) with ht
    have hs' : ((f.1.exact.y : ℝ) < p.exact.y ∧ (p.exact.y : ℝ) ≤ f.2.exact.y) ∨
        ((f.2.exact.y : ℝ) < p.exact.y ∧ (p.exact.y : ℝ) ≤ f.1.exact.y) := by
      rcases hs with ⟨a, b⟩ | ⟨a, b⟩
      · exact .inl ⟨by exact_mod_cast a, by exact_mod_cast b⟩
      · exact .inr ⟨by exact_mod_cast a, by exact_mod_cast b⟩
    have t0 : 0 ≤ t ∧ t ≤ 1 := by
      rcases hs' with ⟨a, b⟩ | ⟨a, b⟩
      · exact ⟨div_nonneg (by linarith) (by linarith), (div_le_one (by linarith)).mpr (by linarith)⟩
      · exact ⟨div_nonneg_of_nonpos (by linarith) (by linarith), (div_le_one_of_neg (by linarith)).mpr (by linarith)⟩
    have hne : (f.2.exact.y : ℝ) - f.1.exact.y ≠ 0 := by
      rcases hs' with ⟨a, b⟩ | ⟨a, b⟩
      · intro h; linarith
      · intro h; linarith
    obtain ⟨W, hW, gW⟩ := near_between (A := E.1) (B := E.2) (p := toReal f.1) (q := toReal f.2) (P := E.1) (Q := E.2)
      ⟨0, le_rfl, zero_le_one, by simp, by simp⟩ ⟨1, zero_le_one, le_rfl, by simp, by simp⟩ h1 h2 t0.1 t0.2
    have hX : (⟨(toReal f.1).x + t * ((toReal f.2).x - (toReal f.1).x), (toReal f.1).y + t * ((toReal f.2).y - (toReal f.1).y)⟩ : Vec2 ℝ) =
        ⟨((crossX f.1.exact f.2.exact p.exact.y : ℚ) : ℝ), (p.exact.y : ℝ)⟩ := by
      apply Vec2.ext
      · simp only [toReal_exact, castVec, crossX, ht]; push_cast; ring
      · simp only [toReal_exact, castVec, ht]
        field_simp
        ring
    rw [hX] at gW
    have h3 := hfar E hE W hW
    have h4 := gap_triangle (toReal p) ⟨((crossX f.1.exact f.2.exact p.exact.y : ℚ) : ℝ), (p.exact.y : ℝ)⟩ W
    have h5 : gap (toReal p) ⟨((crossX f.1.exact f.2.exact p.exact.y : ℚ) : ℝ), (p.exact.y : ℝ)⟩ =
        |(p.exact.x : ℝ) - ((crossX f.1.exact f.2.exact p.exact.y : ℚ) : ℝ)| := gap_horizontal _ _ _
    rw [h5] at h4
    apply (Rat.cast_le (K := ℝ)).mp
    push_cast
    push_cast at h4
    linarith
  · have hw := winding_cast (vs.map Vec2.exact) p.exact
    rw [← hw, List.map_map]
    refine winding_near (d := d) ?_ ?_
    · have : (vs.map (castVec ∘ Vec2.exact)) = vs.map toReal := rfl
      rw [this]
      exact List.forall₂_map_left_iff.mpr hV
    · intro E hE q hq
      have := hfar E hE q hq
      rw [← toReal_exact]
      linarith

theorem contains_near (eps : Double) {d : ℝ} {M : ℚ} (hM : 1 / 2 ^ 500 ≤ M) (hM' : M ≤ 2 ^ 510) {vs : List (Vec2 Double)}
    (h4 : 4 ≤ vs.length) {V : List (Vec2 ℝ)} (hV : MovedBy d vs V) (p : PyPoint Double)
    (hm : ∀ v ∈ p.toVec :: vs, |v.x.val| ≤ M ∧ |v.y.val| ≤ M) (hh : ClearHeights vs)
    (hfar : FarFromEdges (d + (M : ℝ) / 2 ^ 48) V (toReal p.toVec)) :
    ∃ s, Polygon.new vs = .ok s ∧ (s.containsPoint eps p).1 = .ok (winding V (toReal p.toVec) != 0) := by
  have h0 : (0 : ℚ) ≤ M := le_trans (by positivity) hM
  obtain ⟨h1, h2⟩ := near_margin h0 hV hfar
  rw [← h2]
  exact C77_margin eps M hM hM' vs h4 p hm hh h1

/-- **C82** A polygon with at least four vertices that were rounded, or computed with errors up to `d`: the double precision
polygon contains a point farther than `d + M / 2 ^ 48` from the edges of the exact polygon exactly when the exact polygon
winds around it. (`M` bounds all coordinates.) -/
theorem C82_contains (eps : Double) (d : ℝ) (M : ℚ) (hM : 1 / 2 ^ 500 ≤ M) (hM' : M ≤ 2 ^ 510) (vs : List (Vec2 Double))
    (h4 : 4 ≤ vs.length) (V : List (Vec2 ℝ)) (hV : MovedBy d vs V) (p : PyPoint Double)
    (hm : ∀ v ∈ p.toVec :: vs, |v.x.val| ≤ M ∧ |v.y.val| ≤ M) (hh : ClearHeights vs)
    (hfar : FarFromEdges (d + (M : ℝ) / 2 ^ 48) V (toReal p.toVec)) :
    ∃ s, Polygon.new vs = .ok s ∧ (s.containsPoint eps p).1 = .ok (winding V (toReal p.toVec) != 0) :=
  contains_near eps hM hM' h4 hV p hm hh hfar

theorem gap_le_sum (p q : Vec2 ℝ) : gap p q ≤ |p.x - q.x| + |p.y - q.y| := by
  unfold gap vlen
  apply Real.sqrt_le_iff.mpr
  refine ⟨by positivity, ?_⟩
  have e1 := abs_mul_abs_self (p.x - q.x)
  have e2 := abs_mul_abs_self (p.y - q.y)
  simp only
  nlinarith [mul_nonneg (abs_nonneg (p.x - q.x)) (abs_nonneg (p.y - q.y))]

/-- Points far from the edges are not on them. -/
theorem off_edges {d : ℝ} (hd : 0 ≤ d) {V : List (Vec2 ℝ)} {p : Vec2 ℝ} (h : FarFromEdges d V p) : ∀ e ∈ edges V, ¬ OnEdge e p := by
  intro e he hp
  obtain ⟨t, t0, t1, hx, hy⟩ := hp
  have := h e he p ⟨t, t0, t1, hx, hy⟩
  have h0 : gap p p = 0 := by simp [gap, vlen]
  linarith

/-- **C82** `T * polygon` and `polygon *= T` in double precision, after any history: they contain a point farther than
`M / 2 ^ 46` from the edges of the exact image exactly when the exact image winds around it. (`M` bounds the coordinates and
the terms in the formulas of the images.) If the transform is invertible, that is when the polygon winds around the point that
the transform moves there. -/
theorem C82_transformed (eps : Double) (M : ℚ) (hM : 1 / 2 ^ 500 ≤ M) (hM' : M ≤ 2 ^ 509) (vs : List (Vec2 Double))
    (ops : List (PolyOp Double)) (T : Affine Double) (p : PyPoint Double) (hp : |p.toVec.x.val| ≤ M ∧ |p.toVec.y.val| ≤ M) :
    let s := (Polygon.fromPoints vs).after eps ops
    4 ≤ s.verts.length → (∀ v ∈ s.verts, (imageSize T v).x ≤ M ∧ (imageSize T v).y ≤ M) → ClearHeights (s.verts.map T.apply) →
    FarFromEdges ((M : ℝ) / 2 ^ 46) (s.verts.map (image T)) (toReal p.toVec) →
    ∀ t : Polygon Double, t = s.transformed T ∨ t = s.imul T →
      (t.containsPoint eps p).1 = .ok (winding (s.verts.map (image T)) (toReal p.toVec) != 0) ∧
      (exactDet T ≠ 0 → ∀ q, imageAt T q = toReal p.toVec →
        (t.containsPoint eps p).1 = .ok (winding (s.verts.map toReal) q != 0)) := by
  intro s h4 hT hh hfar t ht
  obtain ⟨hi, -⟩ := C19_polygon eps vs ops T
  have ht' : t = Polygon.fromPoints (s.verts.map T.apply) := by
    rcases ht with rfl | rfl
    · rfl
    · exact hi
  have hMr : (1 : ℝ) / 2 ^ 500 ≤ M := by
    have := (Rat.cast_le (K := ℝ)).mpr hM
    push_cast at this
    exact this
  have hMr' : (M : ℝ) ≤ 2 ^ 509 := by
    have := (Rat.cast_le (K := ℝ)).mpr hM'
    push_cast at this
    exact this
  have hη : (1 : ℝ) / 2 ^ 1072 ≤ 1 / 2 ^ 51 * M := by
    refine le_trans ?_ (mul_le_mul_of_nonneg_left hMr (by positivity))
    rw [one_div_mul_one_div, ← pow_add]
    exact inv_pow_le (by norm_num)
  have hbig : (2 : ℝ) ^ 509 ≤ 2 ^ 1000 := pow_le_real (by norm_num)
  have M0 : (0 : ℝ) ≤ M := le_trans (by positivity) hMr
  have hat : ∀ v ∈ s.verts, |(T.apply v).x.real - (image T v).x| ≤ 1 / 2 ^ 50 * M ∧ |(T.apply v).y.real - (image T v).y| ≤ 1 / 2 ^ 50 * M := by
    intro v hv
    obtain ⟨a, b⟩ := hT v hv
    obtain ⟨c1, c2⟩ := C79_apply T v (a.trans (hMr'.trans hbig)) (b.trans (hMr'.trans hbig))
    have a' := mul_le_mul_of_nonneg_left a (show (0 : ℝ) ≤ 1 / 2 ^ 51 by positivity)
    have b' := mul_le_mul_of_nonneg_left b (show (0 : ℝ) ≤ 1 / 2 ^ 51 by positivity)
    have e : (1 : ℝ) / 2 ^ 50 * M = 1 / 2 ^ 51 * M + 1 / 2 ^ 51 * M := by ring
    rw [e]
    exact ⟨c1.trans (by linarith only [a', hη]), c2.trans (by linarith only [b', hη])⟩
  have hmoved : MovedBy ((M : ℝ) / 2 ^ 49) (s.verts.map T.apply) (s.verts.map (image T)) := by
    unfold MovedBy
    rw [List.forall₂_map_left_iff, List.forall₂_map_right_iff]
    refine List.forall₂_same.mpr (fun v hv => ?_)
    obtain ⟨c1, c2⟩ := hat v hv
    refine (gap_le_sum _ _).trans ?_
    have e : (M : ℝ) / 2 ^ 49 = 1 / 2 ^ 50 * M + 1 / 2 ^ 50 * M := by ring
    rw [e]
    exact add_le_add c1 c2
  have hb : ∀ v ∈ p.toVec :: s.verts.map T.apply, |v.x.val| ≤ 2 * M ∧ |v.y.val| ≤ 2 * M := by
    have M0' : (0 : ℚ) ≤ M := by exact_mod_cast M0
    intro v hv
    rcases List.mem_cons.mp hv with rfl | hv
    · exact ⟨hp.1.trans (by linarith only [M0']), hp.2.trans (by linarith only [M0'])⟩
    · obtain ⟨w, hw, rfl⟩ := List.mem_map.mp hv
      obtain ⟨c1, c2⟩ := hat w hw
      obtain ⟨a, b⟩ := hT w hw
      have i1 : |(image T w).x| ≤ M := by
        refine le_trans ?_ a
        unfold image imageSize
        exact (abs_add_le _ _).trans (add_le_add (abs_add_le _ _) le_rfl)
      have i2 : |(image T w).y| ≤ M := by
        refine le_trans ?_ b
        unfold image imageSize
        exact (abs_add_le _ _).trans (add_le_add (abs_add_le _ _) le_rfl)
      have key : ∀ (x : Double) (y : ℝ), |x.real - y| ≤ 1 / 2 ^ 50 * M → |y| ≤ M → |x.val| ≤ 2 * M := by
        intro x y h1 h2
        have h3 : |x.real| ≤ 2 * M := by
          have := abs_sub_abs_le_abs_sub x.real y
          have e : (1 : ℝ) / 2 ^ 50 * M ≤ M := by
            have : (1 : ℝ) / 2 ^ 50 ≤ 1 := by norm_num
            nlinarith only [this, M0]
          linarith only [this, e, h1, h2]
        unfold Spec.Fl.real at h3
        exact_mod_cast h3
      exact ⟨key _ _ c1 i1, key _ _ c2 i2⟩
  have hM2 : (1 : ℚ) / 2 ^ 500 ≤ 2 * M := by
    have : (0 : ℚ) ≤ M := by exact_mod_cast M0
    exact hM.trans (by linarith only [this])
  have hM2' : 2 * M ≤ 2 ^ 510 := by
    have : (2 : ℚ) ^ 510 = 2 * 2 ^ 509 := by rw [← pow_succ']
    rw [this]
    exact mul_le_mul_of_nonneg_left hM' (by norm_num)
  have main : (t.containsPoint eps p).1 = .ok (winding (s.verts.map (image T)) (toReal p.toVec) != 0) := by
    obtain ⟨u, hu, hc⟩ := contains_near eps hM2 hM2' (vs := s.verts.map T.apply) (by simpa using h4) hmoved p hb hh (by
      have e : (M : ℝ) / 2 ^ 49 + ((2 * M : ℚ) : ℝ) / 2 ^ 48 ≤ (M : ℝ) / 2 ^ 46 := by
        push_cast
        have : (0 : ℝ) ≤ (M : ℝ) / 2 ^ 49 := by positivity
        have e2 : (M : ℝ) / 2 ^ 46 = 8 * ((M : ℝ) / 2 ^ 49) := by ring
        have e3 : 2 * (M : ℝ) / 2 ^ 48 = 4 * ((M : ℝ) / 2 ^ 49) := by ring
        rw [e2, e3]
        linarith only [this]
      exact fun E hE q hq => lt_of_le_of_lt e (hfar E hE q hq))
    have : u = t := by
      have hl : ¬ (s.verts.map T.apply).length < 3 := by rw [List.length_map]; omega
      have hm1 : (s.verts.map T.apply).map Vec2.copy = s.verts.map T.apply := List.map_id'' Vec2.copy_fl _
      unfold Polygon.new at hu
      simp only [hm1, hl, if_false] at hu
      rw [ht']
      exact (Except.ok.inj hu).symm
    rw [← this]
    exact hc
  refine ⟨main, fun hdet q hq => ?_⟩
  rw [main, ← hq]
  have hmap : s.verts.map (image T) = (s.verts.map toReal).map (imageAt T) := by
    rw [List.map_map]; rfl
  have hoff : ∀ e ∈ edges (s.verts.map toReal), ¬ OnEdge e q := by
    intro e he hon
    obtain ⟨t, t0, t1, hx, hy⟩ := hon
    refine off_edges (by positivity) hfar (imageAt T e.1, imageAt T e.2) ?_ ⟨t, t0, t1, ?_, ?_⟩
    · rw [hmap, edges_map]
      exact List.mem_map.mpr ⟨e, he, rfl⟩
    · rw [← hq]; simp only [imageAt, hx, hy]; ring
    · rw [← hq]; simp only [imageAt, hx, hy]; ring
  obtain ⟨w1, w2⟩ := winding_map (imageAt T) T.a.real T.b.real T.c.real T.d.real T.e.real T.f.real
    (fun v => by unfold imageAt; rfl) (s.verts.map toReal) q hoff
  rw [hmap]
  unfold exactDet at hdet
  rcases lt_or_gt_of_ne hdet with h | h
  · rw [w2 (by linarith)]; simp [bne]
  · rw [w1 (by linarith)]

/-- For points far from the edges of a broad convex polygon: both tests, in double precision, with vertices within `d` of those
of the polygon. -/
theorem both_near {d : ℝ} (hd : 0 ≤ d) {M : ℚ} (hM : 1 / 2 ^ 500 ≤ M) (hM' : M ≤ 2 ^ 510) {vs : List (Vec2 Double)}
    (h4 : 4 ≤ vs.length) {V : List (Vec2 ℝ)} (hV : MovedBy d vs V) (hc : Convex V) (hnn : ∀ e ∈ edges V, e.1 ≠ e.2) (hb : Broad d V)
    (p : PyPoint Double) (hm : ∀ v ∈ p.toVec :: vs, |v.x.val| ≤ M ∧ |v.y.val| ≤ M) (hh : ClearHeights vs)
    (hfar : FarFromEdges (3 * d + (M : ℝ) / 2 ^ 48) V (toReal p.toVec)) (eps : Double) :
    Polygon.pnpYMonotone (Polygon.splitYPolylines vs) p.toVec = .ok (winding V (toReal p.toVec) != 0) ∧
    ((Polygon.fromPoints vs).containsPoint eps p).1 = .ok (winding V (toReal p.toVec) != 0) ∧
    ((winding V (toReal p.toVec) != 0) = true ↔ InHull V (toReal p.toVec)) := by
  have M0 : (0 : ℝ) < M := by
    have : (0 : ℚ) < M := lt_of_lt_of_le (by positivity) hM
    exact_mod_cast this
  have hM48 : (0 : ℝ) < (M : ℝ) / 2 ^ 48 := by positivity
  have hfar1 : FarFromEdges (d + (M : ℝ) / 2 ^ 48) V (toReal p.toVec) := fun E hE q hq =>
    lt_of_le_of_lt (by linarith) (hfar E hE q hq)
  have hne : vs ≠ [] := by rintro rfl; simp at h4
  have hneV : V ≠ [] := by rintro rfl; cases hV; simp at h4
  have hm' : ∀ v ∈ p.toVec :: vs, ModV v := fun v hv => ⟨(hm v hv).1.trans hM', (hm v hv).2.trans hM'⟩
  obtain ⟨m1, m2⟩ := near_margin (by exact_mod_cast M0.le) hV hfar1
  have hok := edgeOk_of_clear (fun v hv => hm' v (List.mem_cons_of_mem _ hv)) (hm' _ List.mem_cons_self) (margin_clear hM hm hh m1)
  refine ⟨?_, ?_, ?_⟩
  · rw [← ok_pnpYMonotone hok hne, ← pnpYMonotone_cast, List.map_map]
    exact Polygon.ymono_near hd (D := 3 * d + (M : ℝ) / 2 ^ 48) (by linarith)
      (List.forall₂_map_left_iff.mpr hV) hneV hc hnn hb hfar
  · obtain ⟨s, hs, h⟩ := contains_near eps hM hM' h4 hV p hm hh hfar1
    have hl : ¬ vs.length < 3 := by omega
    have hm1 : vs.map Vec2.copy = vs := List.map_id'' Vec2.copy_fl _
    unfold Polygon.new at hs
    simp only [hm1, hl, if_false] at hs
    have : s = Polygon.fromPoints vs := (Except.ok.inj hs).symm
    rw [← this]; exact h
  · constructor
    · intro h; exact inHull_of_winding (by simpa using h)
    · intro h
      have := Polygon.winding_hull hc.1 (Polygon.broad_not_flat hd hneV hb) h (r := 3 * d + (M : ℝ) / 2 ^ 48) (by linarith) hfar
      simpa using this

/-- **C82** A polygon whose vertices are those of a convex polygon up to errors of `d`, with at least four vertices, whatever
convexity and simplicity were declared and whatever was read or asked before (so whatever `is_convex` found out): it contains a
point farther than `3 * d + M / 2 ^ 48` from the edges exactly when the point is in the convex polygon. -/
theorem C82_convex (eps : Double) (d : ℝ) (hd : 0 ≤ d) (M : ℚ) (hM : 1 / 2 ^ 500 ≤ M) (hM' : M ≤ 2 ^ 510) (vs : List (Vec2 Double))
    (h4 : 4 ≤ vs.length) (V : List (Vec2 ℝ)) (hV : MovedBy d vs V) (hc : Convex V) (hnn : ∀ e ∈ edges V, e.1 ≠ e.2) (hb : Broad d V)
    (convex simple : Option Bool) (ops : List (PolyOp Double)) (hops : ∀ op ∈ ops, PlainRead op)
    (p : PyPoint Double) (hm : ∀ v ∈ p.toVec :: vs, |v.x.val| ≤ M ∧ |v.y.val| ≤ M) (hh : ClearHeights vs)
    (hfar : FarFromEdges (3 * d + (M : ℝ) / 2 ^ 48) V (toReal p.toVec)) :
    ∃ s b, Polygon.new vs convex simple = .ok s ∧ ((s.after eps ops).containsPoint eps p).1 = .ok b ∧
      (b = true ↔ InHull V (toReal p.toVec)) := by
  obtain ⟨h1, h2, h3⟩ := both_near hd hM hM' h4 hV hc hnn hb p hm hh hfar eps
  have hm1 : vs.map Vec2.copy = vs := List.map_id'' Vec2.copy_fl _
  obtain ⟨s, hs⟩ : ∃ s, Polygon.new vs convex simple = .ok s := by
    unfold Polygon.new
    simp only [hm1, show ¬ vs.length < 3 by omega, if_false]
    exact ⟨_, rfl⟩
  refine ⟨s, winding V (toReal p.toVec) != 0, hs, ?_, h3⟩
  rcases ((Kept.new hm1 hs).after eps ops hops).contains h4 eps p (.inl rfl) with h | h
  · rw [h, h1]
  · rw [h, h2]


/-! ### The hypotheses are met -/

/-- The edge and everything between its ends is beyond `D` from the point in one direction. -/
def Beyond (D : ℚ) (p : Vec2 ℚ) (e : Vec2 ℚ × Vec2 ℚ) : Prop :=
  (p.x + D < e.1.x ∧ p.x + D < e.2.x) ∨ (e.1.x < p.x - D ∧ e.2.x < p.x - D) ∨
  (p.y + D < e.1.y ∧ p.y + D < e.2.y) ∨ (e.1.y < p.y - D ∧ e.2.y < p.y - D)

instance (D : ℚ) (p : Vec2 ℚ) (e : Vec2 ℚ × Vec2 ℚ) : Decidable (Beyond D p e) := by unfold Beyond; infer_instance

theorem edges_cast (vs : List (Vec2 ℚ)) : edges (vs.map castVec) = (edges vs).map fun e => (castVec e.1, castVec e.2) := by
  unfold edges
  rw [List.getLast?_map]
  cases vs.getLast? with
  | none => rfl
  | some z => simp only [Option.map_some, edgesFrom_cast]

theorem mix_gt {a b c t : ℝ} (h1 : c < a) (h2 : c < b) (t0 : 0 ≤ t) (t1 : t ≤ 1) : c < a + t * (b - a) := by
  rcases le_total a b with h | h
  · nlinarith [mul_nonneg t0 (sub_nonneg.mpr h)]
  · nlinarith [mul_nonneg (sub_nonneg.mpr t1) (sub_nonneg.mpr h)]

theorem mix_lt {a b c t : ℝ} (h1 : a < c) (h2 : b < c) (t0 : 0 ≤ t) (t1 : t ≤ 1) : a + t * (b - a) < c := by
  rcases le_total a b with h | h
  · nlinarith [mul_nonneg (sub_nonneg.mpr t1) (sub_nonneg.mpr h)]
  · nlinarith [mul_nonneg t0 (sub_nonneg.mpr h)]

theorem far_of_beyond {D : ℚ} {W : List (Vec2 ℚ)} {p : Vec2 ℚ} (h : ∀ e ∈ edges W, Beyond D p e) :
    FarFromEdges (D : ℝ) (W.map castVec) (castVec p) := by
  intro E hE q hq
  rw [edges_cast] at hE
  obtain ⟨e, he, rfl⟩ := List.mem_map.mp hE
  obtain ⟨t, t0, t1, hx, hy⟩ := hq
  simp only [castVec] at hx hy
  have c : ∀ {a b : ℚ}, a < b → (a : ℝ) < b := fun h => by exact_mod_cast h
  rcases h e he with ⟨h1, h2⟩ | ⟨h1, h2⟩ | ⟨h1, h2⟩ | ⟨h1, h2⟩
  · have h1 := c h1
    have h2 := c h2
    push_cast at h1 h2
    refine lt_of_lt_of_le ?_ (Polygon.gap_x _ _)
    simp only [castVec]
    rw [abs_sub_comm]
    refine lt_of_lt_of_le ?_ (le_abs_self _)
    rw [hx]; linarith [mix_gt h1 h2 t0 t1]
  · have h1 := c h1
    have h2 := c h2
    push_cast at h1 h2
    refine lt_of_lt_of_le ?_ (Polygon.gap_x _ _)
    simp only [castVec]
    refine lt_of_lt_of_le ?_ (le_abs_self _)
    rw [hx]; linarith [mix_lt h1 h2 t0 t1]
  · have h1 := c h1
    have h2 := c h2
    push_cast at h1 h2
    refine lt_of_lt_of_le ?_ (Polygon.gap_y _ _)
    simp only [castVec]
    rw [abs_sub_comm]
    refine lt_of_lt_of_le ?_ (le_abs_self _)
    rw [hy]; linarith [mix_gt h1 h2 t0 t1]
  · have h1 := c h1
    have h2 := c h2
    push_cast at h1 h2
    refine lt_of_lt_of_le ?_ (Polygon.gap_y _ _)
    simp only [castVec]
    refine lt_of_lt_of_le ?_ (le_abs_self _)
    rw [hy]; linarith [mix_lt h1 h2 t0 t1]

theorem moved_of_rat {d : ℚ} {vs : List (Vec2 Double)} {W : List (Vec2 ℚ)} (h : List.Forall₂ (fun v w => |v.x.val - w.x| + |v.y.val - w.y| ≤ d) vs W) :
    MovedBy (d : ℝ) vs (W.map castVec) := by
  unfold MovedBy
  rw [List.forall₂_map_right_iff]
  refine h.imp (fun v w hvw => (gap_le_sum _ _).trans ?_)
  simp only [toReal_exact, castVec]
  exact_mod_cast hvw

/-- The pentagon `slanted` before its coordinates are rounded. -/
def slantedExact : List (Vec2 ℚ) := [⟨1 / 10, 1 / 3⟩, ⟨31 / 10, 7 / 9⟩, ⟨22 / 7, 25 / 8⟩, ⟨3 / 2, 11 / 10⟩, ⟨-2 / 3, 26 / 9⟩]

/-- `C82_contains` with `M = 4`. -/
example : 4 ≤ slanted.length ∧ MovedBy ((1 / 2 ^ 50 : ℚ) : ℝ) slanted (slantedExact.map castVec) ∧
    (∀ v ∈ dvec 2 1 :: slanted, |v.x.val| ≤ 4 ∧ |v.y.val| ≤ 4) ∧ ClearHeights slanted ∧
    FarFromEdges (((1 / 2 ^ 50 : ℚ) : ℝ) + ((4 : ℚ) : ℝ) / 2 ^ 48) (slantedExact.map castVec) (toReal (dvec 2 1)) ∧
    winding (slantedExact.map castVec) (toReal (dvec 2 1)) ≠ 0 := by
  have e2 : (dvec 2 1).exact = ⟨2, 1⟩ := by
    have h : (dvec 2 1).x.val = 2 ∧ (dvec 2 1).y.val = 1 := by decide +kernel
    exact Vec2.ext h.1 h.2
  refine ⟨by decide, moved_of_rat ?_, by decide +kernel, ?_, ?_, ?_⟩
  · have h : ∀ i : Fin 5, |slanted[i].x.val - slantedExact[i].x| + |slanted[i].y.val - slantedExact[i].y| ≤ 1 / 2 ^ 50 := by decide +kernel
    exact .cons (h 0) (.cons (h 1) (.cons (h 2) (.cons (h 3) (.cons (h 4) .nil))))
  · have h : ∀ e ∈ edges slanted, 1 / 2 ^ 500 ≤ |e.2.y.val - e.1.y.val| := by decide +kernel
    exact fun e he _ => h e he
  · have h : ∀ e ∈ edges slantedExact, Beyond (1 / 2 ^ 50 + 4 / 2 ^ 48) ⟨2, 1⟩ e := by decide +kernel
    have := far_of_beyond h
    rw [toReal_exact, e2]
    push_cast at this ⊢
    exact this
  · rw [toReal_exact, winding_cast, e2]
    decide +kernel

/-- A transform that stretches, shears and shifts. -/
def exShear : Affine Double := { a := dbl (3 / 2), b := dbl (1 / 10), c := dbl (1 / 3), d := dbl 0, e := dbl (4 / 3), f := dbl (-1 / 7) }

/-- The exact image of `slanted` under it. -/
def shearedExact : List (Vec2 ℚ) := slanted.map fun v =>
  ⟨v.x.val * exShear.a.val + v.y.val * exShear.d.val + exShear.c.val, v.x.val * exShear.b.val + v.y.val * exShear.e.val + exShear.f.val⟩

theorem shearedExact_cast : slanted.map (image exShear) = shearedExact.map castVec := by
  unfold shearedExact
  rw [List.map_map]
  refine List.map_congr_left fun v _ => ?_
  simp only [Function.comp, castVec, image, Spec.Fl.real]
  push_cast
  rfl

/-- `C82_transformed` with `M = 8`: a point inside the image. -/
example (eps : Double) :
    let s := (Polygon.fromPoints slanted).after eps []
    4 ≤ s.verts.length ∧ (∀ v ∈ s.verts, (imageSize exShear v).x ≤ ((8 : ℚ) : ℝ) ∧ (imageSize exShear v).y ≤ ((8 : ℚ) : ℝ)) ∧
    ClearHeights (s.verts.map exShear.apply) ∧
    FarFromEdges (((8 : ℚ) : ℝ) / 2 ^ 46) (s.verts.map (image exShear)) (toReal (dvec 3 (11 / 8))) ∧ exactDet exShear ≠ 0 ∧
    winding (s.verts.map (image exShear)) (toReal (dvec 3 (11 / 8))) ≠ 0 := by
  intro s
  have hs : s.verts = slanted := rfl
  rw [hs]
  have e2 : (dvec 3 (11 / 8)).exact = ⟨3, 11 / 8⟩ := by
    have h : (dvec 3 (11 / 8)).x.val = 3 ∧ (dvec 3 (11 / 8)).y.val = 11 / 8 := by decide +kernel
    exact Vec2.ext h.1 h.2
  refine ⟨by decide, ?_, ?_, ?_, ?_, ?_⟩
  · have h : ∀ v ∈ slanted, |v.x.val * exShear.a.val| + |v.y.val * exShear.d.val| + |exShear.c.val| ≤ 8 ∧
        |v.x.val * exShear.b.val| + |v.y.val * exShear.e.val| + |exShear.f.val| ≤ 8 := by decide +kernel
    intro v hv
    obtain ⟨a, b⟩ := h v hv
    have a := (Rat.cast_le (K := ℝ)).mpr a
    have b := (Rat.cast_le (K := ℝ)).mpr b
    push_cast at a b
    simp only [imageSize, Spec.Fl.real]
    push_cast
    exact ⟨a, b⟩
  · have h : ∀ e ∈ edges (slanted.map exShear.apply), 1 / 2 ^ 500 ≤ |e.2.y.val - e.1.y.val| := by decide +kernel
    exact fun e he _ => h e he
  · have h : ∀ e ∈ edges shearedExact, Beyond (8 / 2 ^ 46) ⟨3, 11 / 8⟩ e := by decide +kernel
    have := far_of_beyond h
    rw [toReal_exact, e2, shearedExact_cast]
    push_cast at this ⊢
    exact this
  · have h : exShear.a.val * exShear.e.val - exShear.b.val * exShear.d.val ≠ 0 := by decide +kernel
    have h := (Rat.cast_ne_zero (α := ℝ)).mpr h
    push_cast at h
    exact h
  · rw [toReal_exact, shearedExact_cast, winding_cast, e2]
    decide +kernel


theorem convex_cast {W : List (Vec2 ℚ)} (h : Convex W) : Convex (W.map castVec) := by
  have hside : ∀ a b c : Vec2 ℚ, side (castVec a) (castVec b) (castVec c) = ((side a b c : ℚ) : ℝ) := by
    intro a b c; simp only [side, castVec]; push_cast; ring
  have hlex : ∀ {a b : Vec2 ℚ}, LexLe a b → LexLe (castVec a) (castVec b) := by
    intro a b h
    unfold LexLe at *
    simp only [castVec]
    exact_mod_cast h
  obtain ⟨h1, there, back, h2, h3, h4⟩ := h
  refine ⟨?_, there.map (fun e => (castVec e.1, castVec e.2)), back.map (fun e => (castVec e.1, castVec e.2)), ?_, ?_, ?_⟩
  · rcases h1 with h1 | h1
    · left
      intro e he v hv
      rw [edges_cast] at he
      obtain ⟨f, hf, rfl⟩ := List.mem_map.mp he
      obtain ⟨w, hw, rfl⟩ := List.mem_map.mp hv
      simp only [hside]
      exact_mod_cast h1 f hf w hw
    · right
      intro e he v hv
      rw [edges_cast] at he
      obtain ⟨f, hf, rfl⟩ := List.mem_map.mp he
      obtain ⟨w, hw, rfl⟩ := List.mem_map.mp hv
      simp only [hside]
      exact_mod_cast h1 f hf w hw
  · rw [edges_cast, ← List.map_append]
    exact h2.map _
  · intro e he
    obtain ⟨f, hf, rfl⟩ := List.mem_map.mp he
    exact hlex (h3 f hf)
  · intro e he
    obtain ⟨f, hf, rfl⟩ := List.mem_map.mp he
    exact hlex (h4 f hf)

/-- `Broad` for rational vertices, with vertices at equal heights. -/
def BroadRat (d : ℚ) (W : List (Vec2 ℚ)) : Prop := ∀ u ∈ W,
  ((∀ v ∈ W, u.x ≤ v.x + 2 * d) → ((∃ v ∈ W, v.y + 2 * d < u.y) ∧ ∃ v ∈ W, u.y + 2 * d < v.y) ∧ ∃ w ∈ W, w.y = u.y ∧ u.x < w.x) ∧
  ((∀ v ∈ W, v.x ≤ u.x + 2 * d) → ((∃ v ∈ W, v.y + 2 * d < u.y) ∧ ∃ v ∈ W, u.y + 2 * d < v.y) ∧ ∃ w ∈ W, w.y = u.y ∧ w.x < u.x)

theorem broad_cast {d : ℚ} {W : List (Vec2 ℚ)} (h : BroadRat d W) : Broad (d : ℝ) (W.map castVec) := by
  intro u' hu'
  obtain ⟨u, hu, rfl⟩ := List.mem_map.mp hu'
  have mem : ∀ {v}, v ∈ W → castVec v ∈ W.map castVec := fun hv => List.mem_map.mpr ⟨_, hv, rfl⟩
  obtain ⟨h1, h2⟩ := h u hu
  constructor
  · intro hl
    obtain ⟨⟨⟨a, ha, ha'⟩, b, hb, hb'⟩, w, hw, hw', hw''⟩ := h1 (fun v hv => by
      have := hl _ (mem hv)
      simp only [castVec] at this
      exact_mod_cast this)
    refine ⟨⟨⟨castVec a, mem ha, ?_⟩, castVec b, mem hb, ?_⟩, castVec w, .vertex _ (mem hw), ?_, ?_⟩
    · simp only [castVec]; exact_mod_cast ha'
    · simp only [castVec]; exact_mod_cast hb'
    · simp only [castVec]; exact_mod_cast hw'
    · simp only [castVec]; exact_mod_cast hw''
  · intro hl
    obtain ⟨⟨⟨a, ha, ha'⟩, b, hb, hb'⟩, w, hw, hw', hw''⟩ := h2 (fun v hv => by
      have := hl _ (mem hv)
      simp only [castVec] at this
      exact_mod_cast this)
    refine ⟨⟨⟨castVec a, mem ha, ?_⟩, castVec b, mem hb, ?_⟩, castVec w, .vertex _ (mem hw), ?_, ?_⟩
    · simp only [castVec]; exact_mod_cast ha'
    · simp only [castVec]; exact_mod_cast hb'
    · simp only [castVec]; exact_mod_cast hw'
    · simp only [castVec]; exact_mod_cast hw''

/-- A convex hexagon whose coordinates are not doubles, -/
def hexExact : List (Vec2 ℚ) := [⟨1 / 3, 0⟩, ⟨3, 1 / 7⟩, ⟨11 / 3, 3 / 2⟩, ⟨10 / 3, 3⟩, ⟨0, 31 / 10⟩, ⟨-1 / 3, 3 / 2⟩]

/-- and its rounding. -/
def hexRounded : List (Vec2 Double) := [dvec (1 / 3) 0, dvec 3 (1 / 7), dvec (11 / 3) (3 / 2), dvec (10 / 3) 3, dvec 0 (31 / 10), dvec (-1 / 3) (3 / 2)]

/-- `C82_convex` with `M = 4`: a point inside. -/
example : 4 ≤ hexRounded.length ∧ MovedBy ((1 / 2 ^ 50 : ℚ) : ℝ) hexRounded (hexExact.map castVec) ∧ Convex (hexExact.map castVec) ∧
    (∀ e ∈ edges (hexExact.map castVec), e.1 ≠ e.2) ∧ Broad ((1 / 2 ^ 50 : ℚ) : ℝ) (hexExact.map castVec) ∧
    (∀ v ∈ dvec 2 1 :: hexRounded, |v.x.val| ≤ 4 ∧ |v.y.val| ≤ 4) ∧ ClearHeights hexRounded ∧
    FarFromEdges (3 * ((1 / 2 ^ 50 : ℚ) : ℝ) + ((4 : ℚ) : ℝ) / 2 ^ 48) (hexExact.map castVec) (toReal (dvec 2 1)) ∧
    InHull (hexExact.map castVec) (toReal (dvec 2 1)) := by
  have e2 : (dvec 2 1).exact = ⟨2, 1⟩ := by
    have h : (dvec 2 1).x.val = 2 ∧ (dvec 2 1).y.val = 1 := by decide +kernel
    exact Vec2.ext h.1 h.2
  refine ⟨by decide, moved_of_rat ?_, convex_cast ⟨?_, ?_⟩, ?_, broad_cast ?_, by decide +kernel, ?_, ?_, ?_⟩
  · have h : ∀ i : Fin 6, |hexRounded[i].x.val - hexExact[i].x| + |hexRounded[i].y.val - hexExact[i].y| ≤ 1 / 2 ^ 50 := by decide +kernel
    exact .cons (h 0) (.cons (h 1) (.cons (h 2) (.cons (h 3) (.cons (h 4) (.cons (h 5) .nil)))))
  · left; unfold side; decide +kernel
  · refine ⟨(edges hexExact).take 3, (edges hexExact).drop 3, by rw [List.take_append_drop], ?_, ?_⟩ <;> unfold LexLe <;> decide +kernel
  · have h : ∀ e ∈ edges hexExact, e.1.x ≠ e.2.x := by decide +kernel
    intro e he heq
    rw [edges_cast] at he
    obtain ⟨f, hf, rfl⟩ := List.mem_map.mp he
    refine h f hf ?_
    have := congrArg Vec2.x heq
    simp only [castVec] at this
    exact_mod_cast this
  · unfold BroadRat; decide +kernel
  · have h : ∀ e ∈ edges hexRounded, 1 / 2 ^ 500 ≤ |e.2.y.val - e.1.y.val| := by decide +kernel
    exact fun e he _ => h e he
  · have h : ∀ e ∈ edges hexExact, Beyond (3 * (1 / 2 ^ 50) + 4 / 2 ^ 48) ⟨2, 1⟩ e := by decide +kernel
    have := far_of_beyond h
    rw [toReal_exact, e2]
    push_cast at this ⊢
    exact this
  · apply inHull_of_winding
    rw [toReal_exact, winding_cast, e2]
    decide +kernel

end Planar
