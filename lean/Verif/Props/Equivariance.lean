import Verif.Lemmas.WindAffine
import Verif.Lemmas.ConvexAffine
import Verif.Props.SimpleConvex
import Verif.Props.AllPolys
/- C65: containment moves with the polygon under invertible transforms. -/
set_option linter.unusedSectionVars false
namespace Planar
open Spec Polygon
variable {K : Type} [Field K] [LinearOrder K] [IsStrictOrderedRing K]

/-- **C65** the winding number of a point on no edge: kept by transforms with positive determinant, negated by those with
negative determinant. -/
theorem C65_winding (T : Affine K) (vs : List (Vec2 K)) (p : Vec2 K) (hp : ∀ e ∈ edges vs, ¬ OnEdge e p) :
    (0 < T.determinant → winding (vs.map T.apply) (T.apply p) = winding vs p) ∧
    (T.determinant < 0 → winding (vs.map T.apply) (T.apply p) = -winding vs p) :=
  winding_map T.apply T.a T.b T.c T.d T.e T.f (fun v => by apply Vec2.ext <;> simp) vs p hp

/-- **C65** after every history of reads and edits: transforming the polygon (in place or not) and the point by the same
invertible transform gives, for every point not on the boundary, the answer `contains_point` gives for the untransformed
polygon and point. -/
theorem C65_contains (eps : K) (vs : List (Vec2 K)) (ops : List (PolyOp K)) (T : Affine K) (hd : T.determinant ≠ 0) (p : Vec2 K) :
    let s := (Polygon.fromPoints vs).after eps ops
    Wide eps s.verts → Wide eps (s.verts.map T.apply) → (∀ e ∈ edges s.verts, ¬ OnEdge e p) →
    ((s.transformed T).containsPoint eps (.vec (T.apply p))).1 = ((Polygon.fromPoints s.verts).containsPoint eps (.vec p)).1 ∧
    ((s.imul T).containsPoint eps (.vec (T.apply p))).1 = ((Polygon.fromPoints s.verts).containsPoint eps (.vec p)).1 := by
  intro s h1 h2 hp
  obtain ⟨hi, hv⟩ := C19_polygon eps vs ops T
  rw [show s.imul T = s.transformed T from hi]
  refine (and_self_iff).mpr ?_
  rw [show s.transformed T = Polygon.fromPoints (s.verts.map T.apply) from rfl, C48_all eps _ h2, C48_all eps _ h1]
  congr 1
  obtain ⟨w1, w2⟩ := C65_winding T s.verts p hp
  rcases lt_or_gt_of_ne hd with h | h
  · rw [w2 h]; simp [bne]
  · rw [w1 h]


/-! ### C66: convexity and simplicity -/

theorem apply_inj {T : Affine K} (hd : T.determinant ≠ 0) {u v : Vec2 K} (h : T.apply u = T.apply v) : u = v := by
  have h1 := congrArg Vec2.x h
  have h2 := congrArg Vec2.y h
  simp only [Affine.apply_x, Affine.apply_y] at h1 h2
  unfold Affine.determinant at hd
  have e1 : (T.a * T.e - T.b * T.d) * (u.x - v.x) = 0 := by linear_combination T.e * h1 - T.d * h2
  have e2 : (T.a * T.e - T.b * T.d) * (u.y - v.y) = 0 := by linear_combination T.a * h2 - T.b * h1
  exact Vec2.ext (by linarith [(mul_eq_zero.mp e1).resolve_left hd]) (by linarith [(mul_eq_zero.mp e2).resolve_left hd])

theorem side_apply (T : Affine K) (a b c : Vec2 K) : side (T.apply a) (T.apply b) (T.apply c) = T.determinant * side a b c := by
  simp only [side, Affine.apply_x, Affine.apply_y, Affine.determinant]; ring

/-- The order of the images, as an order of directions. -/
theorem dirOrder {T : Affine K} (hd : T.determinant ≠ 0) :
    DirOrder fun u : Vec2 K => LexNN ⟨u.x * T.a + u.y * T.d, u.x * T.b + u.y * T.e⟩ := by
  constructor
  · intro u v hu hv
    simp only [LexNN, Vec2.add_x, Vec2.add_y] at *
    rcases hu with hu | ⟨hu, hu'⟩ <;> rcases hv with hv | ⟨hv, hv'⟩
    · exact .inl (by linarith)
    · exact .inl (by linarith)
    · exact .inl (by linarith)
    · exact .inr ⟨by linarith, by linarith⟩
  · intro k u hk hu
    simp only [LexNN] at *
    have e1 : k * u.x * T.a + k * u.y * T.d = k * (u.x * T.a + u.y * T.d) := by ring
    have e2 : k * u.x * T.b + k * u.y * T.e = k * (u.x * T.b + u.y * T.e) := by ring
    rw [e1, e2]
    rcases eq_or_lt_of_le hk with h | h
    · right; rw [← h]; simp
    · rcases hu with hu | ⟨hu, hu'⟩
      · exact .inl (mul_pos h hu)
      · exact .inr ⟨by rw [hu]; ring, mul_nonneg hk hu'⟩
  · intro u
    simp only [LexNN, Vec2.neg_x, Vec2.neg_y]
    rcases lt_trichotomy (u.x * T.a + u.y * T.d) 0 with h | h | h
    · exact .inr (.inl (by linarith))
    · rcases le_total 0 (u.x * T.b + u.y * T.e) with h' | h'
      · exact .inl (.inr ⟨h, h'⟩)
      · exact .inr (.inr ⟨by linarith, by linarith⟩)
    · exact .inl (.inl h)
  · intro u hu hu'
    simp only [LexNN, Vec2.neg_x, Vec2.neg_y] at *
    have e1 : u.x * T.a + u.y * T.d = 0 := by
      rcases hu with hu | ⟨hu, -⟩
      · rcases hu' with h | ⟨h, -⟩ <;> linarith
      · exact hu
    have e2 : u.x * T.b + u.y * T.e = 0 := by
      rcases hu with hu | ⟨-, hu⟩
      · linarith
      · rcases hu' with h | ⟨-, h⟩ <;> linarith
    unfold Affine.determinant at hd
    have f1 : (T.a * T.e - T.b * T.d) * u.x = 0 := by linear_combination T.e * e1 - T.d * e2
    have f2 : (T.a * T.e - T.b * T.d) * u.y = 0 := by linear_combination T.a * e2 - T.b * e1
    exact ⟨(mul_eq_zero.mp f1).resolve_left hd, (mul_eq_zero.mp f2).resolve_left hd⟩

theorem lexLe_apply {T : Affine K} (a b : Vec2 K) : LexLe (T.apply a) (T.apply b) ↔
    LexNN (⟨(b - a).x * T.a + (b - a).y * T.d, (b - a).x * T.b + (b - a).y * T.e⟩ : Vec2 K) := by
  rw [lexLe_nn]
  have : T.apply b - T.apply a = ⟨(b - a).x * T.a + (b - a).y * T.d, (b - a).x * T.b + (b - a).y * T.e⟩ := by
    apply Vec2.ext
    · simp only [Vec2.sub_x, Vec2.sub_y, Affine.apply_x]; ring
    · simp only [Vec2.sub_x, Vec2.sub_y, Affine.apply_y]; ring
  rw [this]

/-- **C66** the image of a convex polygon under an invertible transform is convex. -/
theorem C66_convex_image (T : Affine K) (hd : T.determinant ≠ 0) (vs : List (Vec2 K)) (h : Convex vs) :
    Convex (vs.map T.apply) := by
  constructor
  · rcases lt_or_gt_of_ne hd with hd' | hd'
    · rcases h.1 with h | h
      · right
        intro e he v hv
        rw [edges_map] at he
        obtain ⟨e, he', rfl⟩ := List.mem_map.mp he
        obtain ⟨v, hv', rfl⟩ := List.mem_map.mp hv
        simp only [side_apply]
        exact mul_nonpos_of_nonpos_of_nonneg hd'.le (h e he' v hv')
      · left
        intro e he v hv
        rw [edges_map] at he
        obtain ⟨e, he', rfl⟩ := List.mem_map.mp he
        obtain ⟨v, hv', rfl⟩ := List.mem_map.mp hv
        simp only [side_apply]
        exact mul_nonneg_of_nonpos_of_nonpos hd'.le (h e he' v hv')
    · rcases h.1 with h | h
      · left
        intro e he v hv
        rw [edges_map] at he
        obtain ⟨e, he', rfl⟩ := List.mem_map.mp he
        obtain ⟨v, hv', rfl⟩ := List.mem_map.mp hv
        simp only [side_apply]
        exact mul_nonneg hd'.le (h e he' v hv')
      · right
        intro e he v hv
        rw [edges_map] at he
        obtain ⟨e, he', rfl⟩ := List.mem_map.mp he
        obtain ⟨v, hv', rfl⟩ := List.mem_map.mp hv
        simp only [side_apply]
        exact mul_nonpos_of_nonneg_of_nonpos hd'.le (h e he' v hv')
  · obtain ⟨there, back, hr, ht, hb⟩ := once_along h (dirOrder hd)
    refine ⟨there.map fun e => (T.apply e.1, T.apply e.2), back.map fun e => (T.apply e.1, T.apply e.2), ?_, ?_, ?_⟩
    · rw [edges_map, ← List.map_append]
      exact hr.map _
    · intro e he
      obtain ⟨e, he', rfl⟩ := List.mem_map.mp he
      exact (lexLe_apply _ _).mpr (ht e he')
    · intro e he
      obtain ⟨e, he', rfl⟩ := List.mem_map.mp he
      exact (lexLe_apply _ _).mpr (hb e he')
/-- The inverse of an invertible affine map of points. -/
theorem exists_inverse {T : Affine K} (hd : T.determinant ≠ 0) :
    ∃ U : Affine K, U.determinant ≠ 0 ∧ ∀ v, U.apply (T.apply v) = v := by
  have hd' : T.a * T.e - T.b * T.d ≠ 0 := hd
  refine ⟨⟨T.e / T.determinant, -T.b / T.determinant, (T.d * T.f - T.e * T.c) / T.determinant, -T.d / T.determinant,
    T.a / T.determinant, (T.b * T.c - T.a * T.f) / T.determinant⟩, ?_, ?_⟩
  · have : (⟨T.e / T.determinant, -T.b / T.determinant, (T.d * T.f - T.e * T.c) / T.determinant, -T.d / T.determinant,
      T.a / T.determinant, (T.b * T.c - T.a * T.f) / T.determinant⟩ : Affine K).determinant = 1 / T.determinant := by
      simp only [Affine.determinant]; field_simp
    rw [this]; exact one_div_ne_zero hd
  · intro v
    apply Vec2.ext
    · simp only [Affine.apply_x, Affine.apply_y, Affine.determinant, ← mul_div_assoc, ← add_div]
      rw [div_eq_iff hd']; ring
    · simp only [Affine.apply_x, Affine.apply_y, Affine.determinant, ← mul_div_assoc, ← add_div]
      rw [div_eq_iff hd']; ring

theorem map_inverse {T U : Affine K} (h : ∀ v, U.apply (T.apply v) = v) (vs : List (Vec2 K)) :
    (vs.map T.apply).map U.apply = vs := by
  rw [List.map_map]
  conv_rhs => rw [← List.map_id vs]
  exact List.map_congr_left fun v _ => h v

theorem convex_apply {T : Affine K} (hd : T.determinant ≠ 0) (vs : List (Vec2 K)) :
    Convex (vs.map T.apply) ↔ Convex vs := by
  refine ⟨fun h => ?_, C66_convex_image T hd vs⟩
  obtain ⟨U, hU, hinv⟩ := exists_inverse hd
  have := C66_convex_image U hU _ h
  rwa [map_inverse hinv] at this

theorem onEdge_apply {T : Affine K} {e : Vec2 K × Vec2 K} {x : Vec2 K} (h : OnEdge e x) :
    OnEdge (T.apply e.1, T.apply e.2) (T.apply x) := by
  obtain ⟨t, h0, h1, hx, hy⟩ := h
  refine ⟨t, h0, h1, ?_, ?_⟩
  · simp only [Affine.apply_x, hx, hy]; ring
  · simp only [Affine.apply_y, hx, hy]; ring

theorem notNeighbours_apply {T : Affine K} {vs : List (Vec2 K)} {e f : Vec2 K × Vec2 K} (h : NotNeighbours vs e f) :
    NotNeighbours (vs.map T.apply) (T.apply e.1, T.apply e.2) (T.apply f.1, T.apply f.2) := by
  obtain ⟨i, j, h1, h2, he, hf⟩ := h
  refine ⟨i, j, h1, by simpa using h2, ?_, ?_⟩
  · rw [edges_map, List.getElem?_map, he]; rfl
  · rw [edges_map, List.getElem?_map, hf]; rfl

theorem touching_image {T : Affine K} {vs : List (Vec2 K)} (h : SelfTouching vs) : SelfTouching (vs.map T.apply) := by
  obtain ⟨e, f, x, hn, he, hf⟩ := h
  exact ⟨_, _, _, notNeighbours_apply hn, onEdge_apply he, onEdge_apply hf⟩

theorem touching_apply {T : Affine K} (hd : T.determinant ≠ 0) (vs : List (Vec2 K)) :
    SelfTouching (vs.map T.apply) ↔ SelfTouching vs := by
  refine ⟨fun h => ?_, touching_image⟩
  obtain ⟨U, hU, hinv⟩ := exists_inverse hd
  have := touching_image (T := U) h
  rwa [map_inverse hinv] at this

/-- No vertex is on an edge other than the two it ends. -/
def General (vs : List (Vec2 K)) : Prop :=
  ∀ e f, NotNeighbours vs e f → ¬ OnEdge f e.1 ∧ ¬ OnEdge f e.2 ∧ ¬ OnEdge e f.1 ∧ ¬ OnEdge e f.2

theorem general_apply {T : Affine K} (hd : T.determinant ≠ 0) {vs : List (Vec2 K)} (h : General vs) :
    General (vs.map T.apply) := by
  obtain ⟨U, hU, hinv⟩ := exists_inverse hd
  intro e f hn
  have := h _ _ (by have := notNeighbours_apply (T := U) hn; rwa [map_inverse hinv] at this)
  simp only at this
  exact ⟨fun k => this.1 (onEdge_apply k), fun k => this.2.1 (onEdge_apply k), fun k => this.2.2.1 (onEdge_apply k),
    fun k => this.2.2.2 (onEdge_apply k)⟩

theorem transformed_new {eps : K} {vs : List (Vec2 K)} {s0 : Polygon K} (h : Polygon.new vs = .ok s0) (ops : List (PolyOp K))
    (T : Affine K) : let s := s0.after eps ops
    Polygon.new (s.verts.map T.apply) = .ok (s.transformed T) ∧ s.imul T = s.transformed T ∧
      (s.transformed T).verts = s.verts.map T.apply := by
  intro s
  have hl := after_length (eps := eps) h ops
  have hv : 3 ≤ vs.length := by
    by_contra hc
    rw [(C43_new vs none none).1 (by omega)] at h
    cases h
  have h0 : s0 = Polygon.fromPoints vs := by
    rw [C44_fresh_new eps vs hv] at h; injection h with h; exact h.symm
  obtain ⟨a, b⟩ := C19_polygon eps vs ops T
  subst h0
  refine ⟨?_, a, ?_⟩
  · rw [C44_fresh_new eps _ (by simpa using hl)]; rfl
  · rw [← a]; exact b

/-- **C66** after every history of reads and edits `is_convex` is not changed by an invertible transform of the polygon,
in place or not, when its last two vertices are distinct. -/
theorem C66_is_convex (eps : K) (vs : List (Vec2 K)) (s0 : Polygon K) (h : Polygon.new vs = .ok s0) (ops : List (PolyOp K))
    (hl : let ws := (s0.after eps ops).verts; ws[ws.length - 1]? ≠ ws[ws.length - 2]?) (T : Affine K) (hd : T.determinant ≠ 0) :
    ((s0.after eps ops).transformed T).isConvex.1 = (s0.after eps ops).isConvex.1 ∧
    ((s0.after eps ops).imul T).isConvex.1 = (s0.after eps ops).isConvex.1 := by
  obtain ⟨h1, h2, h3⟩ := transformed_new (eps := eps) h ops T
  rw [h2]
  refine (and_self_iff).mpr ?_
  have a := C45_iff_partial eps vs s0 h ops hl
  have hlen := after_length (eps := eps) h ops
  generalize s0.after eps ops = s at *
  have b := C45_iff_partial eps _ _ h1 [] (by
    simp only [Polygon.after, List.foldl_nil] at *
    rw [h3]
    simp only [List.length_map, List.getElem?_map]
    intro hc
    apply hl
    rw [List.getElem?_eq_getElem (by omega : s.verts.length - 1 < s.verts.length),
      List.getElem?_eq_getElem (by omega : s.verts.length - 2 < s.verts.length)] at hc ⊢
    simp only [Option.map_some, Option.some.injEq] at hc
    rw [apply_inj hd hc])
  simp only [Polygon.after, List.foldl_nil] at b
  rw [h3, convex_apply hd, ← a] at b
  exact Bool.eq_iff_iff.mpr b

/-- **C66** the same for `is_simple`, for polygons in general position; and polygons that do not touch themselves are
simple before and after. -/
theorem C66_is_simple (eps : K) (vs : List (Vec2 K)) (s0 : Polygon K) (h : Polygon.new vs = .ok s0) (ops : List (PolyOp K))
    (T : Affine K) (hd : T.determinant ≠ 0) (hg : General (s0.after eps ops).verts ∨ ¬ SelfTouching (s0.after eps ops).verts) :
    ((s0.after eps ops).transformed T).isSimple.1 = (s0.after eps ops).isSimple.1 ∧
    ((s0.after eps ops).imul T).isSimple.1 = (s0.after eps ops).isSimple.1 := by
  obtain ⟨h1, h2, h3⟩ := transformed_new (eps := eps) h ops T
  rw [h2]
  refine (and_self_iff).mpr ?_
  rcases hg with hg | hg
  · have a := C46_general_partial eps vs s0 h ops hg
    generalize s0.after eps ops = s at *
    have b := C46_general_partial eps _ _ h1 [] (by
      simp only [Polygon.after, List.foldl_nil]
      rw [h3]
      exact general_apply hd hg)
    simp only [Polygon.after, List.foldl_nil] at b
    rw [h3, touching_apply hd, ← a] at b
    rwa [Bool.eq_iff_iff, ← not_iff_not, Bool.not_eq_true, Bool.not_eq_true]
  · have a : (s0.after eps ops).isSimple.1 = true := by
      by_contra hc
      exact hg (C46_sound eps vs s0 h ops (by simpa using hc)).1
    generalize s0.after eps ops = s at *
    have b : (s.transformed T).isSimple.1 = true := by
      by_contra hc
      have := (C46_sound eps _ _ h1 [] (by simpa [Polygon.after] using hc)).1
      simp only [Polygon.after, List.foldl_nil] at this
      rw [h3, touching_apply hd] at this
      exact hg this
    rw [a, b]

private instance : DecidableEq (Vec2 ℚ) := fun a b => decidable_of_iff (a.x = b.x ∧ a.y = b.y) Vec2.ext_iff.symm

/-- **C66** for polygons that touch themselves at a vertex the condition is needed: this one is reported simple, and not
simple after a quarter turn. -/
theorem C66_touching : ∃ s : Polygon ℚ, Polygon.new [⟨0, 0⟩, ⟨2, 2⟩, ⟨0, 4⟩, ⟨4, 4⟩, ⟨2, 2⟩, (⟨4, 0⟩ : Vec2 ℚ)] = .ok s ∧
    s.isSimple.1 = true ∧ (s.transformed ⟨0, -1, 0, 1, 0, 0⟩).isSimple.1 = false :=
  ⟨_, rfl, by decide +kernel, by decide +kernel⟩

/-- **C65** for points of the boundary the condition is needed: the half-open boundary depends on the direction. -/
theorem C65_boundary : ∃ s : Polygon ℚ, s = Polygon.fromPoints [⟨0, 0⟩, ⟨2, 0⟩, ⟨2, 2⟩, (⟨0, 2⟩ : Vec2 ℚ)] ∧
    (s.containsPoint 0 (.vec ⟨0, 1⟩)).1 = .ok true ∧
    ((s.transformed ⟨-1, 0, 0, 0, -1, 0⟩).containsPoint 0 (.vec ((⟨-1, 0, 0, 0, -1, 0⟩ : Affine ℚ).apply ⟨0, 1⟩))).1 = .ok false :=
  ⟨_, rfl, by rw [C48_winding _ _ (by decide)]; congr 1; decide +kernel, by
    rw [show Polygon.transformed (Polygon.fromPoints [⟨0, 0⟩, ⟨2, 0⟩, ⟨2, 2⟩, (⟨0, 2⟩ : Vec2 ℚ)]) ⟨-1, 0, 0, 0, -1, 0⟩ =
      Polygon.fromPoints (([⟨0, 0⟩, ⟨2, 0⟩, ⟨2, 2⟩, ⟨0, 2⟩] : List (Vec2 ℚ)).map (⟨-1, 0, 0, 0, -1, 0⟩ : Affine ℚ).apply) from rfl,
      C48_winding _ _ (by decide)]
    congr 1
    decide +kernel⟩

/-- A rotation by 90 degrees with a translation, an arrow head, and a point inside meet the hypotheses of `C65_contains`,
`C66_is_convex` and `C66_is_simple` (with `contains_point` True). -/
example : (⟨0, -1, 5, 1, 0, 7⟩ : Affine ℚ).determinant ≠ 0 ∧ Wide (1/100000) [⟨0, 0⟩, ⟨2, 2⟩, ⟨0, 1⟩, (⟨-2, 2⟩ : Vec2 ℚ)] ∧
    winding [⟨0, 0⟩, ⟨2, 2⟩, ⟨0, 1⟩, (⟨-2, 2⟩ : Vec2 ℚ)] ⟨0, 1/2⟩ ≠ 0 :=
  ⟨by decide +kernel, .inl (by decide), by decide +kernel⟩
example : ∀ e ∈ edges [⟨0, 0⟩, ⟨2, 2⟩, ⟨0, 1⟩, (⟨-2, 2⟩ : Vec2 ℚ)], ¬ OnEdge e (⟨0, 1/2⟩ : Vec2 ℚ) := by
  intro e he
  simp only [edges, List.getLast?_cons_cons, List.getLast?_singleton, edgesFrom, List.mem_cons, List.not_mem_nil, or_false] at he
  rintro ⟨t, h0, h1, hx, hy⟩
  rcases he with rfl | rfl | rfl | rfl <;> simp only at hx hy <;> linarith

end Planar
