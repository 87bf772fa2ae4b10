import Verif.Lemmas.YExact
import Verif.Props.ConvexContains
/- C51: exactly when reading `is_convex` changes what `contains_point` answers. -/
set_option linter.unusedSectionVars false
namespace Planar
open Spec Polygon
variable {K : Type} [Field K] [LinearOrder K] [IsStrictOrderedRing K]

theorem cross_trans {a b c : Vec2 K} (hb : b ≠ ⟨0, 0⟩) (h1 : a.cross b = 0) (h2 : b.cross c = 0) : a.cross c = 0 := by
  simp only [Vec2.cross] at *
  by_cases hx : b.x = 0
  · have hy : b.y ≠ 0 := fun hy => hb (Vec2.ext hx hy)
    have : b.y * (a.x * c.y - a.y * c.x) = 0 := by linear_combination c.y * h1 + a.y * h2
    exact (mul_eq_zero.mp this).resolve_left hy
  · have : b.x * (a.x * c.y - a.y * c.x) = 0 := by linear_combination c.x * h1 + a.x * h2
    exact (mul_eq_zero.mp this).resolve_left hx

theorem line_path {e0 : Vec2 K × Vec2 K} {l : List (Vec2 K × Vec2 K)} : ∀ {a b : Vec2 K} {g : Vec2 K × Vec2 K},
    IsPath a (g :: l) b → ((g :: l).map vec).IsChain (fun a b => a.cross b = 0) → (∀ f ∈ g :: l, f.1 ≠ f.2) →
    side e0.1 e0.2 g.1 = 0 → (vec e0).cross (vec g) = 0 → ∀ f ∈ g :: l, side e0.1 e0.2 f.1 = 0 := by
  induction l with
  | nil => intro a b g _ _ _ h1 _ f hf; simp at hf; subst hf; exact h1
  | cons h l ih =>
    intro a b g hp hch hne h1 h2 f hf
    rcases List.mem_cons.mp hf with rfl | hf
    · exact h1
    · have hlink : h.1 = g.2 := hp.2.1
      simp only [List.map_cons, List.isChain_cons_cons] at hch
      have hg : vec g ≠ ⟨0, 0⟩ := by
        intro hz
        apply hne g (by simp)
        have hx := congrArg Vec2.x hz
        have hy := congrArg Vec2.y hz
        simp only [vec, Vec2.sub_x, Vec2.sub_y] at hx hy
        exact Vec2.ext (by linarith) (by linarith)
      refine ih hp.2 hch.2 (fun f hf => hne f (by simp only [List.mem_cons] at hf ⊢; tauto)) ?_ (cross_trans hg h2 hch.1) f hf
      rw [hlink]
      simp only [side, vec, Vec2.cross, Vec2.sub_x, Vec2.sub_y] at h1 h2 ⊢
      linear_combination h1 + h2

/-- A polygon that `_classify` marks as convex and degenerate is flat. -/
theorem flat_of_dg {vs : List (Vec2 K)} (hcv : cv vs = true) (hd : dg vs = true) : Flat vs := by
  have hconv : (classifyRun vs).convex = true := by
    unfold cv at hcv; split at hcv
    · exact hcv
    · simp at hcv
  unfold dg at hd
  unfold classifyRun at hd hconv
  simp only [solid_map] at hd hconv
  rw [Bool.or_eq_true, beq_iff_eq, beq_iff_eq, loop_count _ _ _ _ _ _ hconv, loop_angle _ _ _ _ _ _ hconv] at hd
  by_cases hs : solid vs = []
  · have hnull : ∀ e ∈ edges vs, e.1 = e.2 := by
      intro e he
      by_contra hne
      have := solid_mem.mpr ⟨he, hne⟩
      rw [hs] at this; simp at this
    intro a ha b hb c hc
    have hall := edges_invariant (P := fun v => v = a) (fun e he h => (hnull e he).symm.trans h) ha rfl
    rw [hall b hb, hall c hc]; unfold side; ring
  · have hch : ((solid vs).map vec).IsChain (fun a b => a.cross b = 0) := by
      rcases hd with hd | hd
      · simp only [List.length_map, zero_add, List.length_eq_zero_iff] at hd
        exact absurd hd hs
      · exact (List.isChain_cons.mp hd.2).2
    have hmem : ∀ v ∈ vs, ∃ f ∈ solid vs, f.1 = v := fun v hv => vertex_start hv hs
    intro a ha b hb c hc
    have hne : vs ≠ [] := List.ne_nil_of_mem ha
    have hp := solid_path hne
    have hnn : ∀ f ∈ solid vs, f.1 ≠ f.2 := fun f hf => (solid_mem.mp hf).2
    obtain ⟨g, l, hg⟩ := List.exists_cons_of_ne_nil hs
    have key : ∀ f ∈ solid vs, side g.1 g.2 f.1 = 0 := by
      intro f hf
      rw [hg] at hp hch hnn hf
      exact line_path hp hch hnn (by unfold side; ring) (by simp only [Vec2.cross]; ring) f hf
    obtain ⟨f1, k1, rfl⟩ := hmem a ha
    obtain ⟨f2, k2, rfl⟩ := hmem b hb
    obtain ⟨f3, k3, rfl⟩ := hmem c hc
    exact collinear_of_line (hnn g (by rw [hg]; simp)) (key f1 k1) (key f2 k2) (key f3 k3)

/-- Inside a convex polygon that is not flat there is a point. -/
theorem inside_exists {vs : List (Vec2 K)} (hc : OneSided vs) (hf : ¬ Flat vs) : ∃ p, winding vs p ≠ 0 := by
  rcases hc with hc | hc
  · exact inside_exists_left hc hf
  · have hr : Anticlockwise vs.reverse := by
      intro e he v hv
      rw [(edges_reverse_perm vs).mem_iff] at he
      obtain ⟨⟨a, b⟩, he', rfl⟩ := List.mem_map.mp he
      have := hc _ he' v (List.mem_reverse.mp hv)
      simp only [Prod.swap, side] at this ⊢
      linarith
    obtain ⟨p, hp⟩ := inside_exists_left hr (fun h => hf fun a ha b hb c hc =>
      h a (List.mem_reverse.mpr ha) b (List.mem_reverse.mpr hb) c (List.mem_reverse.mpr hc))
    rw [(C48_invariance vs p ⟨0, 0⟩ 0).2.1] at hp
    exact ⟨p, fun h => hp (by rw [h]; rfl)⟩

/-- Once `is_convex` of a convex polygon that is not flat has been read, `contains_point` uses the chains. -/
theorem contains_after_convex (eps : K) {vs : List (Vec2 K)} {s : Polygon K} (h : Polygon.new vs = .ok s) (h4 : 4 ≤ vs.length)
    (hc : Convex vs) (hf : ¬ Flat vs) (p : PyPoint K) :
    (s.isConvex.2.containsPoint eps p).1 = pnpYMonotone (splitYPolylines vs) p.toVec := by
  have hcv : s.isConvex.1 = true := C45_complete eps vs s h [] (by
    obtain ⟨-, rfl, -, hv⟩ := new_inv h eps
    simpa [Polygon.after, fromPoints, cleared] using hc)
  obtain ⟨-, rfl, hi, hv⟩ := new_inv h eps
  obtain ⟨hval, hi', hv', -⟩ := inv_isConvex hi
  rw [hv] at hv'
  rw [hval, hv, convexVal, if_pos (by omega)] at hcv
  have hdg : dg vs = false := by
    by_contra hd; exact hf (flat_of_dg hcv (by simpa using hd))
  have hcen : (fromPoints vs).isConvex.2.centroid = none := by
    rw [isConvex_unknown (by simp [fromPoints, cleared]; omega), classify_eq]
    simp [fromPoints, cleared]
  have hy : (fromPoints vs).isConvex.2.yPolylines = some (splitYPolylines vs) := by
    rw [isConvex_unknown (by simp [fromPoints, cleared]; omega), classify_eq]
    simp [fromPoints, cleared, hcv, hdg]
  rw [contains_inv hi' (by rw [hv']; exact h4) (Or.inr (by rw [hcen]; simp)), hy]

/-- **C51** exactly for which convex polygons that are not flat reading `is_convex` changes what `contains_point`
answers: the `Swapped` ones. For the others it changes no answer. (Partial because of these.) -/
theorem C51_exact_partial (eps : K) (vs : List (Vec2 K)) (s : Polygon K) (h : Polygon.new vs = .ok s) (h4 : 4 ≤ vs.length)
    (hc : Convex vs) (hf : ¬ Flat vs) :
    (∀ p, (s.isConvex.2.containsPoint eps p).1 = (s.containsPoint eps p).1) ↔ ¬ Swapped vs := by
  have hne : vs ≠ [] := by rintro rfl; simp at h4
  have h0 : ∀ p, (s.containsPoint eps p).1 = .ok (winding vs p.toVec != 0) := by
    obtain ⟨-, rfl, -, -⟩ := new_inv h eps
    exact C48_winding eps vs h4
  obtain ⟨e1, e2⟩ := ymono_exact hne hc hf
  constructor
  · intro hall hsw
    obtain ⟨p, hp⟩ := inside_exists hc.1 hf
    have := hall (.vec p)
    rw [contains_after_convex eps h h4 hc hf, e2 hsw, h0] at this
    injection this with this
    exact hp (by simpa [PyPoint.toVec] using this)
  · intro hsw p
    rw [contains_after_convex eps h h4 hc hf, e1 hsw, h0]

/-- **C51** and the `Swapped` ones contain no point at all once `is_convex` has been read, or if they are declared
convex, although some point is inside by the winding rule. -/
theorem C51_swapped_violated (eps : K) (vs : List (Vec2 K)) (h4 : 4 ≤ vs.length) (hc : Convex vs) (hf : ¬ Flat vs)
    (hsw : Swapped vs) :
    (∀ s, Polygon.new vs = .ok s → ∀ p, (s.isConvex.2.containsPoint eps p).1 = .ok false) ∧
    (∀ s m, Polygon.new vs (some true) m = .ok s → ∀ p, (s.containsPoint eps p).1 = .ok false) ∧
    ∃ p, winding vs p ≠ 0 := by
  have hne : vs ≠ [] := by rintro rfl; simp at h4
  obtain ⟨-, e2⟩ := ymono_exact hne hc hf
  refine ⟨?_, ?_, inside_exists hc.1 hf⟩
  · intro s h p
    rw [contains_after_convex eps h h4 hc hf, e2 hsw]
  · intro s m h p
    rw [new_eq vs _ _ (by omega)] at h
    injection h with h
    subst h
    rw [← e2 hsw p.toVec]
    unfold containsPoint
    simp only [cleared, show ¬ vs.length = 3 by omega, if_false]
    simp [show vs.length > 3 by omega]

/-- **C51** the other convex polygons answer by the winding rule also when declared convex. -/
theorem C51_declared_exact_partial (eps : K) (vs : List (Vec2 K)) (s : Polygon K) (m : Option Bool)
    (h : Polygon.new vs (some true) m = .ok s) (h4 : 4 ≤ vs.length) (hc : Convex vs) (hf : ¬ Flat vs) :
    (∀ p, (s.containsPoint eps p).1 = .ok (winding vs p.toVec != 0)) ↔ ¬ Swapped vs := by
  have hne : vs ≠ [] := by rintro rfl; simp at h4
  obtain ⟨e1, -⟩ := ymono_exact hne hc hf
  constructor
  · intro hall hsw
    obtain ⟨-, h2, p, hp⟩ := C51_swapped_violated eps vs h4 hc hf hsw
    have := hall (.vec p)
    rw [h2 s m h] at this
    injection this with this
    exact hp (by simpa [PyPoint.toVec] using this)
  · intro hsw p
    rw [new_eq vs _ _ (by omega)] at h
    injection h with h
    subst h
    rw [← e1 hsw p.toVec]
    unfold containsPoint
    simp only [cleared, show ¬ vs.length = 3 by omega, if_false]
    simp [show vs.length > 3 by omega]

/-- **C52** with "flat or not swapped" the condition for convex polygons is exact: for a quadrilateral or a simple polygon
(convex if `is_convex` is True), no history of reads changes an answer of `contains_point` if and only if it is not
convex, or flat, or not `Swapped`. -/
theorem C52_history_exact_partial (eps : K) (vs : List (Vec2 K)) (s : Polygon K) (h : Polygon.new vs = .ok s) (h4 : 4 ≤ vs.length)
    (hs : vs.length = 4 ∨ s.isSimple.1 = true) (hcv : s.isConvex.1 = true → Convex vs) :
    (∀ reads : List (PolyOp K), (∀ op ∈ reads, op.isRead = true) → ∀ p,
      ((s.after eps reads).containsPoint eps p).1 = (s.containsPoint eps p).1) ↔
    (s.isConvex.1 = true → Flat vs ∨ ¬ Swapped vs) := by
  constructor
  · intro hall hc
    by_contra hno
    push Not at hno
    refine (C51_exact_partial eps vs s h h4 (hcv hc) hno.1).mp (fun p => ?_) hno.2
    exact hall [.isConvex] (by simp [PolyOp.isRead]) p
  · intro hor reads hr p
    by_cases hfl : Flat vs
    · rw [(C52_history_partial eps vs s h h4 hs (fun hc => ⟨hcv hc, Or.inl hfl⟩) reads hr p).1,
        (C52_history_partial eps vs s h h4 hs (fun hc => ⟨hcv hc, Or.inl hfl⟩) reads hr p).2]
    obtain ⟨-, rfl, hi, hv⟩ := new_inv h eps
    have hne : vs ≠ [] := by rintro rfl; simp at h4
    rw [C48_winding eps vs h4 p]
    obtain ⟨hi', -, hv'⟩ := inv_after hi reads
    have hv' := hv' hr
    rw [hv] at hv'
    have hcen : vs.length = 4 ∨ ((fromPoints vs).after eps reads).centroid ≠ some none := by
      rcases hs with hs | hs
      · exact Or.inl hs
      · right
        intro hc
        have := hi'.centroid _ hc
        rw [hv'] at this
        rw [(inv_isSimple hi).1, hv] at hs
        rw [centroidVal, hs, if_pos rfl] at this
        rcases hcc : computeCentroid vs with e | c <;> rw [hcc] at this <;> cases this
    rw [contains_inv hi' (by rw [hv']; exact h4) (by rw [hv']; exact hcen)]
    rcases ypl_cases hi' (by rw [hv']; exact h4) with hy | ⟨hy, hcvt⟩
    · simp only [hy, hv']
    · simp only [hy, hv']
      rw [hv'] at hcvt
      have hc1 : (fromPoints vs).isConvex.1 = true := by
        rw [(inv_isConvex hi).1, hv, convexVal, if_pos (by omega), hcvt]
      exact (ymono_exact hne (hcv hc1) hfl).1 ((hor hc1).resolve_left hfl) p.toVec

section
variable {x0 x1 y0 y1 : K}

theorem rectangle_first (hx : x0 < x1) (hy : y0 < y1) {vs : List (Vec2 K)} (hvs : vs = [⟨x0, y0⟩, ⟨x1, y0⟩, ⟨x1, y1⟩, ⟨x0, y1⟩]) :
    FirstAt (fun v => v.y) vs 0 ∧ FirstAt (fun v => -v.y) vs 2 ∧ FirstAt (fun v => v.x) vs 0 ∧ FirstAt (fun v => -v.x) vs 1 := by
  subst hvs
  refine ⟨⟨_, rfl, by simp [hy.le], by simp⟩, ⟨_, rfl, by simp [hy.le], ?_⟩, ⟨_, rfl, by simp [hx.le], by simp⟩, ⟨_, rfl, by simp [hx.le], ?_⟩⟩
  · intro j w hj hw
    have : j = 0 ∨ j = 1 := by omega
    rcases this with rfl | rfl <;> simp at hw <;> subst hw <;> simpa using hy
  · intro j w hj hw
    have : j = 0 := by omega
    subst this; simp at hw; subst hw; simpa using hx

/-- A rectangle listed anticlockwise from its lower left corner is swapped and meets all the conditions above. -/
theorem rectangle_swapped (hx : x0 < x1) (hy : y0 < y1) :
    Swapped [⟨x0, y0⟩, ⟨x1, y0⟩, ⟨x1, y1⟩, (⟨x0, y1⟩ : Vec2 K)] ∧ ¬ Flat [⟨x0, y0⟩, ⟨x1, y0⟩, ⟨x1, y1⟩, (⟨x0, y1⟩ : Vec2 K)] := by
  obtain ⟨h1, h2, h3, h4⟩ := rectangle_first hx hy rfl
  refine ⟨⟨0, 2, 0, 1, h1, h2, h3, h4, Or.inl ⟨rfl, Or.inl ⟨by decide, ?_⟩⟩⟩, ?_⟩
  · have a1 := mul_nonneg (sub_nonneg.mpr hx.le) (sub_nonneg.mpr hy.le)
    intro e he v hv
    simp [edges, edgesFrom] at he hv
    rcases he with rfl | rfl | rfl | rfl <;> rcases hv with rfl | rfl | rfl | rfl <;> simp only [side] <;> nlinarith
  · intro hf
    have := hf ⟨x0, y0⟩ (by simp) ⟨x1, y0⟩ (by simp) ⟨x1, y1⟩ (by simp)
    simp only [side] at this
    have := mul_pos (sub_pos.mpr hx) (sub_pos.mpr hy)
    nlinarith

end

/-- The polygon of `C51_violated` is `Swapped`; listed in the other direction from the same corner it is not. -/
example : Convex [⟨0, 0⟩, ⟨4, 1⟩, ⟨5, 5⟩, (⟨1, 4⟩ : Vec2 ℚ)] ∧ ¬ Flat [⟨0, 0⟩, ⟨4, 1⟩, ⟨5, 5⟩, (⟨1, 4⟩ : Vec2 ℚ)] ∧
    Swapped [⟨0, 0⟩, ⟨4, 1⟩, ⟨5, 5⟩, (⟨1, 4⟩ : Vec2 ℚ)] ∧
    Convex [⟨0, 0⟩, ⟨1, 4⟩, ⟨5, 5⟩, (⟨4, 1⟩ : Vec2 ℚ)] ∧ ¬ Swapped [⟨0, 0⟩, ⟨1, 4⟩, ⟨5, 5⟩, (⟨4, 1⟩ : Vec2 ℚ)] := by
  have c1 : Convex [⟨0, 0⟩, ⟨4, 1⟩, ⟨5, 5⟩, (⟨1, 4⟩ : Vec2 ℚ)] :=
    convex_of_cv (by decide) (by rw [Ne, Vec2.ext_iff]; decide +kernel) (by decide +kernel)
  have c2 : Convex [⟨0, 0⟩, ⟨1, 4⟩, ⟨5, 5⟩, (⟨4, 1⟩ : Vec2 ℚ)] :=
    convex_of_cv (by decide) (by rw [Ne, Vec2.ext_iff]; decide +kernel) (by decide +kernel)
  have f1 : ¬ Flat [⟨0, 0⟩, ⟨4, 1⟩, ⟨5, 5⟩, (⟨1, 4⟩ : Vec2 ℚ)] := by
    intro hf
    have := hf ⟨0, 0⟩ (by simp) ⟨4, 1⟩ (by simp) ⟨5, 5⟩ (by simp)
    norm_num [side] at this
  have f2 : ¬ Flat [⟨0, 0⟩, ⟨1, 4⟩, ⟨5, 5⟩, (⟨4, 1⟩ : Vec2 ℚ)] := by
    intro hf
    have := hf ⟨0, 0⟩ (by simp) ⟨4, 1⟩ (by simp) ⟨5, 5⟩ (by simp)
    norm_num [side] at this
  refine ⟨c1, f1, ?_, c2, ?_⟩
  · by_contra hsw
    have := (C51_exact_partial (1/100000) _ _ rfl (by decide) c1 f1).mpr hsw (.vec ⟨5/2, 5/2⟩)
    exact absurd this (by decide +kernel)
  · intro hsw
    have := (C51_swapped_violated (1/100000) _ (by decide) c2 f2 hsw).1 _ rfl (.vec ⟨5/2, 5/2⟩)
    exact absurd this (by decide +kernel)

end Planar
