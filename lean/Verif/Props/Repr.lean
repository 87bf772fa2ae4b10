import Verif.Model.Repr
import Verif.Props.Segment
import Verif.Props.PolyState
/- C60: the arguments printed by `repr` rebuild an equal object; C62: boxes are never inverted. -/
namespace Planar
open Real Spec

section
variable {K : Type} [LinearOrder K] [Add K] [Sub K] [Mul K] [Div K] [Neg K] [Zero K] [One K] [RoundedArith K]

/-- **C60** `Vec2(x, y)`. -/
theorem C60_vec (v : Vec2 K) : (Vec2.mk' v.reprArgs.1 v.reprArgs.2 == v) = true := by
  simp [Vec2.reprArgs, Vec2.mk'_fl]

/-- **C60** `Affine(a, b, c, d, e, f)`. -/
theorem C60_affine (T : Affine K) : ∃ T', Affine.new T.reprArgs = .ok T' ∧ T' = T := by
  refine ⟨_, rfl, ?_⟩
  ext <;> exact f_mul_one _

/-- **C60** `Affine(...)` takes six numbers, which become its entries in the order given; any other number of arguments
raises TypeError. -/
theorem C60_affine_arguments (ms : List K) :
    (∀ T, Affine.new ms = .ok T ↔ ms = [T.a, T.b, T.c, T.d, T.e, T.f]) ∧
    (ms.length ≠ 6 → Affine.new ms = .error .typeError) := by
  have h6 : ms.length = 6 ∨ Affine.new ms = .error .typeError := by
    rcases ms with _ | ⟨a, _ | ⟨b, _ | ⟨c, _ | ⟨d, _ | ⟨e, _ | ⟨f, _ | ⟨g, r⟩⟩⟩⟩⟩⟩⟩ <;> first | exact .inr rfl | exact .inl rfl
  constructor
  · intro T
    rcases h6 with h | h
    · obtain ⟨a, b, c, d, e, f, rfl⟩ : ∃ a b c d e f, ms = [a, b, c, d, e, f] := by
        rcases ms with _ | ⟨a, _ | ⟨b, _ | ⟨c, _ | ⟨d, _ | ⟨e, _ | ⟨f, _ | ⟨g, r⟩⟩⟩⟩⟩⟩⟩ <;> simp at h ⊢
      simp only [Affine.new, Affine.mk', f_mul_one, Except.ok.injEq]
      constructor
      · rintro rfl; rfl
      · intro hh; simp only [List.cons.injEq, and_true] at hh
        obtain ⟨rfl, rfl, rfl, rfl, rfl, rfl⟩ := hh; rfl
    · rw [h]
      constructor
      · intro hh; cases hh
      · rintro rfl; cases h
  · intro hn; rcases h6 with h | h
    · exact absurd h hn
    · exact h

/-- **C60** `BoundingBox([min, max])`, for every box that is not inverted (C62: there is no other). -/
theorem C60_box (b : Box K) (hx : b.min.x ≤ b.max.x) (hy : b.min.y ≤ b.max.y) :
    ∃ b', Box.fromPoints b.reprArgs = .ok b' ∧ (b' == b) = true := by
  refine ⟨_, by rw [Box.reprArgs, fromPoints_pair], ?_⟩
  change ((_ == _) && (_ == _)) = true
  simp [min_eq_left hx, min_eq_left hy, max_eq_right hx, max_eq_right hy]

/-- **C60** `Vec2Array([...])`. -/
theorem C60_seq (s : Vecs K) : Vec2Array.new s.reprArgs = s := by
  simp [Vec2Array.new, Vecs.reprArgs, map_copy']

/-- **C60** `Polygon([...], is_convex=..., is_simple=...)`: the call succeeds, the polygon has the same vertices, is
equal to the original and answers `is_convex` as the original does. (The last hypothesis holds for every polygon object, see
`C60_polygon_all`: `_clear_cached_properties` sets both flags of a triangle.) -/
theorem C60_polygon (s : Polygon K) (h : 3 ≤ s.verts.length) (h3 : s.verts.length = 3 → s.convex = some true) :
    ∃ q, Polygon.new s.reprArgs.1 s.reprArgs.2.1 s.reprArgs.2.2 = .ok q ∧
      q.verts = s.verts ∧ q.eq s = true ∧ s.eq q = true ∧ q.isConvex.1 = s.isConvex.1 := by
  have hv : s.reprArgs.1 = s.verts := by unfold Polygon.reprArgs; split <;> rfl
  have hc : s.reprArgs.2.1 = s.convex := by unfold Polygon.reprArgs; split <;> simp_all
  refine ⟨_, new_eq _ _ _ (by rw [hv]; exact h), hv, eq_of_verts hv, eq_of_verts hv.symm, ?_⟩
  rw [hv, hc]
  by_cases hl : 3 < s.verts.length
  · rcases hs : s.convex with _ | c
    · simp only [Polygon.isConvex, hl, if_true, hs, Polygon.classify_eq, Polygon.cleared]
    · simp only [Polygon.isConvex, hl, if_true, hs]
  · have := h3 (by omega)
    simp only [Polygon.isConvex, hl, if_false, this]

/-- The hypotheses of `C60_polygon` hold for every polygon made by the constructor and any later history. -/
theorem polygon_reachable_tri (eps : K) (s : Polygon K) (hi : Polygon.Inv eps s) (h3 : s.verts.length = 3) :
    s.convex = some true := (hi.short (by omega)).1

/-! ### C62 -/

/-- **C62** every box has its minimum corner below and left of its maximum corner. -/
theorem C62_upright (b : Box K) (h : b.Built) : b.min.x ≤ b.max.x ∧ b.min.y ≤ b.max.y := by
  have hp : ∀ {ps : List (Vec2 K)} {b : Box K}, Box.fromPoints ps = .ok b → b.min.x ≤ b.max.x ∧ b.min.y ≤ b.max.y := by
    intro ps b h
    have ht := fromPoints_iff.mp h
    obtain ⟨p, hp⟩ := List.exists_mem_of_ne_nil _ ht.nonempty
    have := ht.1 p hp
    simp only [Box.Encloses] at this
    exact ⟨this.1.trans this.2.1, this.2.2.1.trans this.2.2.2⟩
  have hc : ∀ {c : Vec2 K} {w h : K} {b : Box K}, Box.fromCenter c w h = .ok b →
      b.min.x ≤ b.max.x ∧ b.min.y ≤ b.max.y := by
    intro c w h b hb
    unfold Box.fromCenter at hb
    exact hp hb
  have hfold : ∀ (bs : List (Box K)) (acc : Vec2 K × Vec2 K), acc.1.x ≤ acc.2.x ∧ acc.1.y ≤ acc.2.y →
      (bs.foldl (fun (acc : Vec2 K × Vec2 K) q => Box.stepShape acc.1 acc.2 q) acc).1.x ≤
      (bs.foldl (fun (acc : Vec2 K × Vec2 K) q => Box.stepShape acc.1 acc.2 q) acc).2.x ∧
      (bs.foldl (fun (acc : Vec2 K × Vec2 K) q => Box.stepShape acc.1 acc.2 q) acc).1.y ≤
      (bs.foldl (fun (acc : Vec2 K × Vec2 K) q => Box.stepShape acc.1 acc.2 q) acc).2.y := by
    intro bs
    induction bs with
    | nil => intro acc h; exact h
    | cons s ss ih =>
      intro acc h
      rw [List.foldl_cons]
      apply ih
      have e1 : ∀ a b : K, (if b < a then b else a) = min a b := fun a b => pymin_eq_min a b
      have e2 : ∀ a b : K, (if b > a then b else a) = max a b := fun a b => pymax_eq_max a b
      simp only [Box.stepShape, e1, e2]
      exact ⟨(min_le_left _ _).trans (h.1.trans (le_max_left _ _)), (min_le_left _ _).trans (h.2.trans (le_max_left _ _))⟩
  induction h with
  | points h => exact hp h
  | @shapes bs b hs h ih =>
    cases bs with
    | nil => cases h
    | cons s ss =>
      simp only [Box.fromShapes, Except.ok.injEq] at h
      rw [← h]
      simpa [Vec2.copy_fl] using hfold ss (s.min, s.max) (ih s (by simp))
  | center hb => exact hc hb
  | inflateV _ h => unfold Box.inflateV at h; exact hp h
  | inflateS _ h => unfold Box.inflateS Box.inflateV at h; exact hp h
  | @fit s t b _ _ h =>
    simp only [Box.fitBox, bind, Except.bind] at h
    split at h
    · cases h
    · split at h
      · cases h
      · exact hc h
  | @mul eps s T b _ h =>
    simp only [Box.mulT, bind, Except.bind, pure, Except.pure] at h
    split at h
    · split at h
      · cases h
      · rename_i r hr
        cases h
        exact hp hr
    · split at h <;> cases h

/-- **C60/C62** `repr` of any box there is. -/
theorem C60_box_built (b : Box K) (h : b.Built) : ∃ b', Box.fromPoints b.reprArgs = .ok b' ∧ (b' == b) = true :=
  C60_box b (C62_upright b h).1 (C62_upright b h).2

end

/-- inflating by a negative amount larger than the box gives an upright box -/
example : ∃ b : Box ℚ, b.Built ∧ Box.inflateS ⟨⟨0, 0⟩, ⟨2, 4⟩⟩ (-6) = .ok b ∧ b.min.x < b.max.x := by
  refine ⟨⟨⟨-1, 1⟩, ⟨3, 3⟩⟩, ?_, ?_, by norm_num⟩
  · refine .inflateS (s := ⟨⟨0, 0⟩, ⟨2, 4⟩⟩) (k := -6) (.points (ps := [⟨0, 0⟩, ⟨2, 4⟩]) ?_) ?_
    · rw [fromPoints_pair]; norm_num
    · simp only [Box.inflateS, Box.inflateV]; rw [fromPoints_pair]; norm_num [Vec2.copy, Vec2.mk']
  · simp only [Box.inflateS, Box.inflateV]; rw [fromPoints_pair]; norm_num [Vec2.copy, Vec2.mk']

/-! ### C60 for lines, rays and segments -/

/-- **C60** `Line(point, direction)`. `Frame` is C34: it holds for every line there is. -/
theorem C60_line (eps : ℝ) (h0 : 0 < eps) (h1 : eps < 1) (l : Line ℝ) (h : l.Frame) :
    ∃ p d m, l.reprArgs eps = .ok (p, d) ∧ Line.new eps p d = .ok m ∧ (m == l) = true := by
  have hl : eps < l.direction.length := by rw [h.1]; exact h1
  refine ⟨_, _, _, by simp only [Line.reprArgs, Line.project_ok h0.le h1 h]; rfl, Line.new_ok h0 h1 hl, ?_⟩
  change ((_ == _) && (_ == _)) = true
  have e := unitOf_of_unit h.1
  obtain ⟨dx, dy, hu, hd, hn⟩ := h.eqs
  rw [hd] at e
  simp only [hd, hn, e, Bool.and_eq_true, beq_iff_eq, Vec2.dot]
  refine ⟨?_, by simp⟩
  linear_combination l.offset * hu

/-- **C60** `Ray(anchor, direction)`. -/
theorem C60_ray (eps : ℝ) (h0 : 0 < eps) (h1 : eps < 1) (r : Ray ℝ) (h : r.Frame) :
    ∃ m, Ray.new eps r.reprArgs.1 r.reprArgs.2 = .ok m ∧ (m == r) = true := by
  have hl : eps < r.direction.length := by rw [h.1]; exact h1
  refine ⟨_, Ray.new_ok h0 h1 hl, ?_⟩
  change ((_ == _) && (_ == _)) = true
  simp [unitOf_of_unit h.1, Ray.reprArgs]

/-- **C60** `LineSegment(anchor, vector)` for segments whose length is 0 or above EPSILON (the constructor makes no
others). Missing: segments with a length up to EPSILON, `C60_segment_violated`. -/
theorem C60_segment_partial (eps : ℝ) (h0 : 0 < eps) (h1 : eps < 1) (s : LineSegment ℝ) (h : s.Frame)
    (hl : s.length = 0 ∨ eps < |s.length|) :
    ∃ m, LineSegment.new eps s.reprArgs.1 s.reprArgs.2 = .ok m ∧ (m == s) = true := by
  have hv : s.vector = Vec2.null ∨ eps < s.vector.length := by
    rcases hl with hl | hl
    · left; ext <;> simp [LineSegment.vector, hl]
    · right
      have h1 : s.direction.length = 1 := h.1
      rw [LineSegment.vector, length_smul, h1, mul_one]; exact hl
  refine ⟨_, LineSegment.new_ok h0 h1 _ hv, ?_⟩
  change ((_ == _) && (LineSegment.vector _ == _)) = true
  simp only [LineSegment.reprArgs, LineSegment.vector]
  have := segDir_smul s.vector
  simp only [LineSegment.vector] at this
  rw [this]; simp

/-- **C60** fails for short segments: whenever the length is not 0 and at most EPSILON, the printed call raises
ValueError. -/
theorem C60_segment_violated (eps : ℝ) (h0 : 0 < eps) (s : LineSegment ℝ) (h : s.Frame)
    (hl : s.length ≠ 0) (hs : |s.length| ≤ eps) :
    LineSegment.new eps s.reprArgs.1 s.reprArgs.2 = .error .valueError := by
  have h1 : s.direction.length = 1 := h.1
  have hlen : s.vector.length = |s.length| := by rw [LineSegment.vector, length_smul, h1, mul_one]
  have hv : s.vector ≠ Vec2.null := by
    intro e
    rw [← length_eq_zero, hlen] at e
    exact hl (abs_eq_zero.mp e)
  simp only [LineSegment.new, LineSegment.reprArgs, setVector_error h0 _ hv (hlen ▸ hs)]

/-- Such a segment is made by `LineSegment.from_normal((1, 0), 0, 0, 0.000005)`. -/
example : ∃ s : LineSegment ℝ, LineSegment.fromNormal (1/100000) ⟨1, 0⟩ 0 0 (1/200000) = .ok s ∧
    s.Frame ∧ s.length ≠ 0 ∧ |s.length| ≤ 1/100000 := by
  have hn : Lin.ofNormal (1/100000) (⟨1, 0⟩ : Vec2 ℝ) = .ok ⟨⟨0, 1⟩, ⟨1, 0⟩⟩ := by
    rw [ofNormal_long (by norm_num) (by norm_num) (by rw [len10]; norm_num), unit10]; norm_num
  refine ⟨⟨⟨⟨0, 1⟩, ⟨1, 0⟩⟩, ⟨0, 0⟩, 1/200000⟩, ?_, ?_, by norm_num, ?_⟩
  · simp only [LineSegment.fromNormal, hn]
    change Except.ok _ = Except.ok _
    congr 2
    · ext <;> simp
    · norm_num
  · have := Lin.frame_mk (dx := 0) (dy := 1) (by norm_num)
    simpa using this
  · rw [abs_of_pos] <;> norm_num

end Planar
