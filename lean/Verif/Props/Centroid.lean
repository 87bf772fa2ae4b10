import Verif.Spec.Area
import Verif.Props.Convex
/- Property C47: the centroid. -/
set_option linter.unusedSectionVars false
namespace Planar
open Spec
open Polygon
variable {K : Type} [Field K] [LinearOrder K] [IsStrictOrderedRing K]

/-- The loop adds up the triangles from `a` over the edges of the path. -/
theorem centroidLoop_eq (a : Vec2 K) (l : List (Vec2 K)) (b cen : Vec2 K) (tot : K) :
    centroidLoop a l b cen tot =
      (⟨cen.x + ((edgesFrom b l).map fun e => (a.x + e.1.x + e.2.x) * side a e.1 e.2).sum,
        cen.y + ((edgesFrom b l).map fun e => (a.y + e.1.y + e.2.y) * side a e.1 e.2).sum⟩,
       tot + ((edgesFrom b l).map fun e => side a e.1 e.2).sum) := by
  induction l generalizing b cen tot with
  | nil => simp [centroidLoop]
  | cons c l ih =>
    rw [centroidLoop, ih]
    simp only [edgesFrom_cons, List.map_cons, List.sum_cons, Vec2.smul, side, Vec2.add_x, Vec2.add_y]
    refine Prod.ext (Vec2.ext ?_ ?_) ?_ <;> simp only <;> ring

theorem sum_sub' {α : Type} (l : List α) (f g : α → K) :
    (l.map fun x => f x + g x).sum = (l.map f).sum + (l.map g).sum := by
  induction l with
  | nil => simp
  | cons a l ih => simp only [List.map_cons, List.sum_cons, ih]; ring

/-- Closing the fan: a sum over the closed path is the sum over the fan of triangles. -/
theorem fan_sum (F : Vec2 K × Vec2 K → K) (G : Vec2 K → Vec2 K × Vec2 K → K) (hF : ∀ u v, F (u, v) = - F (v, u))
    (hG : ∀ a u v, G a (u, v) = F (a, u) + F (u, v) + F (v, a)) (a b : Vec2 K) (l : List (Vec2 K)) :
    ((edgesFrom b l).map (G a)).sum = ((edges (a :: b :: l)).map F).sum := by
  have h1 : ((edgesFrom b l).map (G a)).sum =
      ((edgesFrom b l).map F).sum + ((edgesFrom b l).map fun e => F (e.2, a) - F (e.1, a)).sum := by
    rw [← sum_sub']
    congr 1
    apply List.map_congr_left
    rintro ⟨u, v⟩ _
    rw [hG, hF a u]; ring
  have h2 := sum_edgesFrom_telescope (fun v => F (v, a)) b l
  rw [h1, h2, edges_cons]
  simp only [edgesFrom_cons, List.map_cons, List.sum_cons, List.getLast_cons_cons]
  rw [hF b a]
  ring

theorem wedge_anti (u v : Vec2 K) : wedge (u, v) = - wedge (v, u) := by unfold wedge; ring

theorem fan_area (a b : Vec2 K) (l : List (Vec2 K)) :
    ((edgesFrom b l).map fun e => side a e.1 e.2).sum = area2 (a :: b :: l) :=
  fan_sum wedge (fun a e => side a e.1 e.2) wedge_anti (fun a u v => by simp only [wedge, side]; ring) a b l

theorem fan_momentX (a b : Vec2 K) (l : List (Vec2 K)) :
    ((edgesFrom b l).map fun e => (a.x + e.1.x + e.2.x) * side a e.1 e.2).sum = momentX (a :: b :: l) :=
  fan_sum (fun e => (e.1.x + e.2.x) * wedge e) (fun a e => (a.x + e.1.x + e.2.x) * side a e.1 e.2)
    (fun u v => by simp only [wedge]; ring) (fun a u v => by simp only [wedge, side]; ring) a b l

theorem fan_momentY (a b : Vec2 K) (l : List (Vec2 K)) :
    ((edgesFrom b l).map fun e => (a.y + e.1.y + e.2.y) * side a e.1 e.2).sum = momentY (a :: b :: l) :=
  fan_sum (fun e => (e.1.y + e.2.y) * wedge e) (fun a e => (a.y + e.1.y + e.2.y) * side a e.1 e.2)
    (fun u v => by simp only [wedge]; ring) (fun a u v => by simp only [wedge, side]; ring) a b l

/-- What the code computes for the vertices. -/
theorem computeCentroid_eq {vs : List (Vec2 K)} (h : 2 ≤ vs.length) :
    computeCentroid vs = if area2 vs = 0 then .error .zeroDivisionError else .ok (areaCentroid vs) := by
  rcases vs with _ | ⟨a, _ | ⟨b, l⟩⟩
  · simp at h
  · simp at h
  · have g0 : pyGet (a :: b :: l) 0 = .ok a := by simp [pyGet, pyIndex]
    have g1 : pyGet (a :: b :: l) 1 = .ok b := by simp [pyGet, pyIndex]
    unfold computeCentroid
    simp only [g0, g1, bind, Except.bind, List.drop_succ_cons, List.drop_zero, centroidLoop_eq, fan_area, fan_momentX, fan_momentY]
    unfold Vec2.sdiv pydiv areaCentroid
    have e3 : (1 + 1 + 1 : K) = 3 := by norm_num
    by_cases h0 : area2 (a :: b :: l) = 0
    · simp [h0, Vec2.mk', bind, Except.bind]
    · simp [h0, Vec2.mk', bind, Except.bind, e3, pure, Except.pure]

/-- **C47** after every history of reads and edits, the centroid of a simple polygon of non-zero area is its area centroid;
for zero area `ZeroDivisionError` is raised; a polygon that is not simple has centroid None. -/
theorem C47_centroid (eps : K) (vs : List (Vec2 K)) (s0 : Polygon K) (h : Polygon.new vs = .ok s0) (ops : List (PolyOp K)) :
    let s := s0.after eps ops
    (s.isSimple.1 = true → area2 s.verts ≠ 0 → s.getCentroid.1 = .ok (some (areaCentroid s.verts))) ∧
    (s.isSimple.1 = true → area2 s.verts = 0 → s.getCentroid.1 = .error .zeroDivisionError) ∧
    (s.isSimple.1 = false → s.getCentroid.1 = .ok none) := by
  intro s
  have h3 : 3 ≤ vs.length := by
    by_contra hc
    rw [(C43_new vs none none).1 (by omega)] at h
    simp at h
  rw [C44_fresh_new eps vs h3] at h
  injection h with h
  subst h
  obtain ⟨hi, hlen, -⟩ := inv_after (inv_fromPoints eps vs) ops
  have hlen : s.verts.length = vs.length := hlen
  change Inv eps s at hi
  rw [(inv_getCentroid hi).1, (inv_isSimple hi).1, centroidVal]
  have hcc := computeCentroid_eq (vs := s.verts) (by omega)
  refine ⟨fun h1 h2 => ?_, fun h1 h2 => ?_, fun h1 => ?_⟩
  · rw [h1, if_pos rfl, hcc, if_neg h2]; rfl
  · rw [h1, if_pos rfl, hcc, if_pos h2]; rfl
  · simp [h1]

/-- **C47** the area centroid does not depend on the starting vertex or the direction. -/
theorem C47_rotate_reverse (vs : List (Vec2 K)) (k : Nat) :
    areaCentroid (vs.rotate k) = areaCentroid vs ∧ areaCentroid vs.reverse = areaCentroid vs ∧
    area2 (vs.rotate k) = area2 vs ∧ area2 vs.reverse = - area2 vs := by
  have hr : ∀ F : Vec2 K × Vec2 K → K, ((edges (vs.rotate k)).map F).sum = ((edges vs).map F).sum := fun F =>
    ((edges_rotate_perm vs k).map F).sum_eq
  have hv : ∀ F : Vec2 K × Vec2 K → K, (∀ u v, F (u, v) = - F (v, u)) →
      ((edges vs.reverse).map F).sum = - ((edges vs).map F).sum := by
    intro F hF
    rw [((edges_reverse_perm vs).map F).sum_eq, List.map_map]
    generalize edges vs = es
    induction es with
    | nil => simp
    | cons e es ih => obtain ⟨u, v⟩ := e; simp only [List.map_cons, List.sum_cons, ih, Function.comp, Prod.swap, hF v u]; ring
  have a1 : area2 vs.reverse = - area2 vs := hv wedge wedge_anti
  have x1 : momentX vs.reverse = - momentX vs := hv _ (fun u v => by simp only [wedge]; ring)
  have y1 : momentY vs.reverse = - momentY vs := hv _ (fun u v => by simp only [wedge]; ring)
  have a2 : area2 (vs.rotate k) = area2 vs := hr wedge
  have x2 : momentX (vs.rotate k) = momentX vs := hr _
  have y2 : momentY (vs.rotate k) = momentY vs := hr _
  refine ⟨by unfold areaCentroid; rw [a2, x2, y2], ?_, a2, a1⟩
  unfold areaCentroid
  rw [a1, x1, y1, mul_neg, neg_div_neg_eq, neg_div_neg_eq]

/-- The sums under an affine map, over any list of edges whose `wedge`s telescope. -/
theorem moments_map (T : Affine K) (vs : List (Vec2 K)) :
    let f := T.apply
    let D := T.a * T.e - T.b * T.d
    area2 (vs.map f) = D * area2 vs ∧
    momentX (vs.map f) = D * (T.a * momentX vs + T.d * momentY vs + 3 * T.c * area2 vs) ∧
    momentY (vs.map f) = D * (T.b * momentX vs + T.e * momentY vs + 3 * T.f * area2 vs) := by
  intro f D
  have key : ∀ (F G : Vec2 K × Vec2 K → K) (g : Vec2 K → K),
      (∀ u v, F (f u, f v) = G (u, v) + (g v - g u)) → ((edges (vs.map f)).map F).sum = ((edges vs).map G).sum := by
    intro F G g h
    rw [edges_map, List.map_map]
    have : ((edges vs).map (F ∘ fun e => (f e.1, f e.2))).sum = ((edges vs).map fun e => G e + (g e.2 - g e.1)).sum := by
      congr 1; apply List.map_congr_left; rintro ⟨u, v⟩ _; exact h u v
    rw [this, sum_sub', sum_edges_telescope g vs, add_zero]
  have lin : ∀ (c : K) (F : Vec2 K × Vec2 K → K), ((edges vs).map fun e => c * F e).sum = c * ((edges vs).map F).sum := by
    intro c F
    generalize edges vs = es
    induction es with
    | nil => simp
    | cons e es ih => simp only [List.map_cons, List.sum_cons, ih]; ring
  have hf : ∀ v, f v = ⟨v.x*T.a + v.y*T.d + T.c, v.x*T.b + v.y*T.e + T.f⟩ := fun v => by simp [f, Affine.apply, Vec2.mk']
  refine ⟨?_, ?_, ?_⟩
  · have := key wedge (fun e => D * wedge e) (fun v => T.c * (v.x*T.b + v.y*T.e) - T.f * (v.x*T.a + v.y*T.d)) (fun u v => by
      simp only [hf, wedge, D]; ring)
    unfold area2; rw [this, lin]
  · have := key (fun e => (e.1.x + e.2.x) * wedge e)
      (fun e => D * T.a * ((e.1.x + e.2.x) * wedge e) + (D * T.d * ((e.1.y + e.2.y) * wedge e) + 3 * D * T.c * wedge e))
      (fun v => (T.c * (v.x*T.b + v.y*T.e) - T.f * (v.x*T.a + v.y*T.d)) * 2 * T.c
        + (v.x*T.a + v.y*T.d) * (T.c * (v.x*T.b + v.y*T.e) - T.f * (v.x*T.a + v.y*T.d)))
      (fun u v => by simp only [hf, wedge, D]; ring)
    unfold momentX
    rw [this, sum_sub', sum_sub', lin, lin, lin]
    unfold momentY area2; ring
  · have := key (fun e => (e.1.y + e.2.y) * wedge e)
      (fun e => D * T.b * ((e.1.x + e.2.x) * wedge e) + (D * T.e * ((e.1.y + e.2.y) * wedge e) + 3 * D * T.f * wedge e))
      (fun v => (T.c * (v.x*T.b + v.y*T.e) - T.f * (v.x*T.a + v.y*T.d)) * 2 * T.f
        + (v.x*T.b + v.y*T.e) * (T.c * (v.x*T.b + v.y*T.e) - T.f * (v.x*T.a + v.y*T.d)))
      (fun u v => by simp only [hf, wedge, D]; ring)
    unfold momentY
    rw [this, sum_sub', sum_sub', lin, lin, lin]
    unfold momentX area2; ring

/-- **C47** the area centroid moves with translations and linear maps (any transform with a non-zero determinant). -/
theorem C47_affine (T : Affine K) (vs : List (Vec2 K)) (hd : T.a * T.e - T.b * T.d ≠ 0) (ha : area2 vs ≠ 0) :
    areaCentroid (vs.map T.apply) = T.apply (areaCentroid vs) ∧ area2 (vs.map T.apply) ≠ 0 := by
  obtain ⟨e1, e2, e3⟩ := moments_map T vs
  refine ⟨?_, by rw [e1]; exact mul_ne_zero hd ha⟩
  unfold areaCentroid
  rw [e1, e2, e3]
  have h3 : (3 : K) ≠ 0 := by norm_num
  apply Vec2.ext <;> simp only [Affine.apply, Vec2.mk', mul_one]
  · field_simp
  · field_simp

/-- **C47** the centroid of `T * polygon` is `T *` the centroid, when both are simple. -/
theorem C47_transformed (eps : K) (vs : List (Vec2 K)) (s : Polygon K) (h : Polygon.new vs = .ok s) (T : Affine K)
    (hd : T.a * T.e - T.b * T.d ≠ 0) (ha : area2 vs ≠ 0) (h1 : s.isSimple.1 = true) (h2 : (s.transformed T).isSimple.1 = true) :
    ∃ c, s.getCentroid.1 = .ok (some c) ∧ (s.transformed T).getCentroid.1 = .ok (some (T.apply c)) := by
  have hv := (new_verts h).1
  have h3 := (new_verts h).2
  have hts : s.transformed T = Polygon.fromPoints (vs.map T.apply) := by
    unfold Polygon.transformed; rw [hv]; rfl
  have hn : Polygon.new (vs.map T.apply) = .ok (s.transformed T) := by
    rw [hts]; exact C44_fresh_new eps _ (by simpa using h3)
  have c1 := (C47_centroid eps vs s h []).1
  have c2 := (C47_centroid eps _ _ hn []).1
  simp only [Polygon.after, List.foldl_nil] at c1 c2
  rw [hv] at c1
  obtain ⟨e1, e2⟩ := C47_affine T vs hd ha
  have hv2 : (s.transformed T).verts = vs.map T.apply := by rw [hts]; rfl
  rw [hv2, e1] at c2
  exact ⟨_, c1 h1 ha, c2 h2 e2⟩

/-- **C47** the centroid of a triangle is the mean of its vertices; its area is half the cross product of two sides. -/
theorem C47_triangle (a b c : Vec2 K) (h : side a b c ≠ 0) :
    area2 [a, b, c] = side a b c ∧
    ∃ s, Polygon.new [a, b, c] = .ok s ∧
      s.getCentroid.1 = .ok (some ⟨(a.x + b.x + c.x) / 3, (a.y + b.y + c.y) / 3⟩) := by
  have hA : area2 [a, b, c] = side a b c := by rw [← fan_area]; simp
  have hX : momentX [a, b, c] = (a.x + b.x + c.x) * side a b c := by rw [← fan_momentX]; simp
  have hY : momentY [a, b, c] = (a.y + b.y + c.y) * side a b c := by rw [← fan_momentY]; simp
  refine ⟨hA, _, C44_fresh_new (0 : K) [a, b, c] (by simp), ?_⟩
  have := (C47_centroid (0 : K) [a, b, c] _ (C44_fresh_new (0 : K) [a, b, c] (by simp)) []).1
  simp only [Polygon.after, List.foldl_nil] at this
  rw [this (by simp [Polygon.fromPoints, Polygon.cleared, Polygon.isSimple]) (by
    change area2 [a, b, c] ≠ 0; rw [hA]; exact h)]
  change Except.ok (some (areaCentroid [a, b, c])) = _
  unfold areaCentroid
  rw [hA, hX, hY, mul_div_mul_right _ _ h, mul_div_mul_right _ _ h]

/-- **C47** areas and moments are additive: cutting a polygon along a chord from `a` to `b` divides both between the parts.
With `C47_triangle` this determines them: every polygon is cut into triangles. -/
theorem C47_cut (a b : Vec2 K) (l m : List (Vec2 K)) :
    area2 (a :: l ++ b :: m) = area2 (a :: l ++ [b]) + area2 (b :: m ++ [a]) ∧
    momentX (a :: l ++ b :: m) = momentX (a :: l ++ [b]) + momentX (b :: m ++ [a]) ∧
    momentY (a :: l ++ b :: m) = momentY (a :: l ++ [b]) + momentY (b :: m ++ [a]) := by
  have key : ∀ F : Vec2 K × Vec2 K → K, (∀ u v, F (u, v) = - F (v, u)) →
      ((edges (a :: l ++ b :: m)).map F).sum = ((edges (a :: l ++ [b])).map F).sum + ((edges (b :: m ++ [a])).map F).sum := by
    intro F hF
    have e1 : edges (a :: l ++ b :: m) = ((b :: m).getLast (by simp), a) :: (edgesFrom a (l ++ [b]) ++ edgesFrom b m) := by
      rw [List.cons_append, edges_cons]
      have : l ++ b :: m = (l ++ [b]) ++ m := by simp
      simp only [this, edgesFrom_append (l := l ++ [b])]
      simp
    have e2 : edges (a :: l ++ [b]) = (b, a) :: edgesFrom a (l ++ [b]) := by
      rw [List.cons_append, edges_cons]; simp
    have e3 : edges (b :: m ++ [a]) = (a, b) :: (edgesFrom b m ++ [((b :: m).getLast (by simp), a)]) := by
      rw [List.cons_append, edges_cons, edgesFrom_append]; simp
    rw [e1, e2, e3]
    simp only [List.map_cons, List.map_append, List.sum_cons, List.sum_append, List.map_nil, List.sum_nil, hF a b]
    ring
  exact ⟨key _ wedge_anti, key _ (fun u v => by simp only [wedge]; ring), key _ (fun u v => by simp only [wedge]; ring)⟩

/-- An L-shaped hexagon: simple, of area 3, with centroid (5/6, 5/6); a flat quadrilateral raises; a bow tie has none. -/
example : (∃ s : Polygon ℚ, Polygon.new [⟨0, 0⟩, ⟨2, 0⟩, ⟨2, 1⟩, ⟨1, 1⟩, ⟨1, 2⟩, (⟨0, 2⟩ : Vec2 ℚ)] = .ok s ∧ s.isSimple.1 = true ∧
      area2 s.verts = 6 ∧ areaCentroid s.verts = ⟨5/6, 5/6⟩) ∧
    (∃ s : Polygon ℚ, Polygon.new [⟨0, 0⟩, ⟨1, 0⟩, ⟨2, 0⟩, (⟨3, 0⟩ : Vec2 ℚ)] = .ok s ∧ s.isSimple.1 = true ∧ area2 s.verts = 0) ∧
    (∃ s : Polygon ℚ, Polygon.new [⟨0, 0⟩, ⟨2, 2⟩, ⟨2, 0⟩, (⟨0, 2⟩ : Vec2 ℚ)] = .ok s ∧ s.isSimple.1 = false) := by
  refine ⟨⟨_, rfl, by decide +kernel, by decide +kernel, ?_⟩, ⟨_, rfl, by decide +kernel, by decide +kernel⟩,
    ⟨_, rfl, by decide +kernel⟩⟩
  rw [Vec2.ext_iff]; decide +kernel

end Planar
