import Verif.Lemmas.CostTangents
import Verif.Props.RunningTime
/- C87: how long `tangents_to_point` takes. Steps are counted by the counted versions of the functions in Model/Cost. -/
set_option linter.unusedSectionVars false
namespace Planar
open Polygon Spec

section Free
/- Nothing at all is assumed of the numbers. -/
variable {K : Type} [Add K] [Sub K] [Mul K] [Div K] [Neg K] [Zero K] [One K] [BEq K] [LT K] [LE K]
  [DecidableLT K] [DecidableLE K]

/-- **C87** the counted search gives the answers, raises the exceptions and leaves the objects of the uncounted one. -/
theorem C87_same_answers (s : Polygon K) (p : Vec2 K) : (s.tangentsToPointC p).val = s.tangentsToPoint p :=
  tangentsToPointC_val s p

/-- The search after the classification. -/
theorem tangents_rest (s : Polygon K) (p : Vec2 K) (h : 20 < s.verts.length) :
    (s.tangentsToPointC p).steps ≤ s.isConvexC.steps + 2 * s.verts.length := by
  unfold tangentsToPointC
  rw [if_pos h, andThen_steps, isConvexC_val]
  have hv := isConvex_verts_free s
  generalize s.isConvex = r at hv ⊢
  obtain ⟨b, t⟩ := r
  simp only at hv ⊢
  have hl := leftTanC_steps t.verts p
  have hr := rightTanC_steps t.verts p
  have ht := ptTangentsC_steps t.verts p
  rw [hv] at hl hr ht ⊢
  split_ifs
  · rw [andThen_steps]
    rcases (leftTanC s.verts p).val with e | l
    · simp only [ret_steps]; omega
    · simp only
      rcases pyGet s.verts l with e | lv
      · simp only [ret_steps]; omega
      · simp only [andThen_steps, ret_steps]; omega
  · simp only [andThen_steps, ret_steps]; omega

/-- **C87** `tangents_to_point` takes at most `n` steps for up to 20 vertices, at most `2 n` when it is known whether the
polygon is convex, and at most `5 n + 2` in any case, for every polygon object and every point. -/
theorem C87_linear (s : Polygon K) (p : Vec2 K) : (s.tangentsToPointC p).steps ≤ 5 * s.verts.length + 2 ∧
    (s.verts.length ≤ 20 → (s.tangentsToPointC p).steps ≤ s.verts.length) ∧
    (s.isConvexKnown = true → (s.tangentsToPointC p).steps ≤ 2 * s.verts.length) := by
  have small : s.verts.length ≤ 20 → (s.tangentsToPointC p).steps ≤ s.verts.length := by
    intro h
    unfold tangentsToPointC
    rw [if_neg (by omega), andThen_steps]
    have := ptTangentsC_steps s.verts p
    simp only [ret_steps]; omega
  obtain ⟨c1, c2, -⟩ := C86_is_convex s
  rcases Nat.lt_or_ge 20 s.verts.length with h | h
  · have := tangents_rest s p h
    exact ⟨by omega, fun h' => by omega, fun hk => by have := c2 hk; omega⟩
  · have := small h
    exact ⟨by omega, fun _ => this, fun _ => by omega⟩

/-- **C87** (the documented logarithmic time) is violated by polygons declared convex, by `Polygon(vs, is_convex=True)`
or by taking a hull: whatever has been read from them, they always go through all vertices. -/
theorem C87_declared (eps : K) (vs : List (Vec2 K)) (h20 : 20 < vs.length) (s0 : Polygon K)
    (h : Polygon.new vs (some true) none = .ok s0) (ops : List (PolyOp K)) (ho : ∀ o ∈ ops, o.isRead = true) (p : Vec2 K) :
    (s0.after eps ops).isConvex.1 = true ∧ ((s0.after eps ops).tangentsToPointC p).steps = vs.length := by
  obtain ⟨d, -, dl, dd⟩ := declared_new (by omega) h
  obtain ⟨d1, d2, d3, -⟩ := d.after eps ops ho
  have hl : (s0.after eps ops).verts.length = vs.length := by rw [d2, dl]
  rw [dd] at d3
  generalize s0.after eps ops = s at *
  have hi : s.isConvex = (true, s) := by unfold isConvex; rw [d1.convex]
  have h0 : s.isConvexC.steps = 0 := (C86_is_convex s).2.1 (by unfold isConvexKnown; rw [d1.convex]; rfl)
  refine ⟨by rw [hi], ?_⟩
  unfold tangentsToPointC
  rw [if_pos (by omega), andThen_steps, isConvexC_val, hi, h0]
  simp only [d3, Option.getD_none, Bool.not_true, Bool.and_false, Bool.false_eq_true, if_false]
  rw [andThen_steps, ret_steps]
  have hpt : (ptTangentsC s.verts p).steps = s.verts.length := by
    obtain ⟨a, ha⟩ := pyGet_ok s.verts 0 (by omega) (by omega)
    obtain ⟨b, hb⟩ := pyGet_ok s.verts (-2) (by omega) (by omega)
    obtain ⟨c, hc⟩ := pyGet_ok s.verts (-1) (by omega) (by omega)
    unfold ptTangentsC
    rw [ha, hb, hc]
    simp [tangentsLoopC_steps]
  omega

end Free

section Exact
variable {K : Type} [Field K] [LinearOrder K] [IsStrictOrderedRing K]

/-- With distinct neighbours the code counts no duplicates. -/
theorem dv_of_distinct {vs : List (Vec2 K)} (hc : cv vs = true) (h : ∀ e ∈ edges vs, e.1 ≠ e.2) : dv vs = false := by
  have hconv : (classifyRun vs).convex = true := by
    unfold cv at hc; split at hc
    · exact hc
    · simp at hc
  simp only [dv, decide_eq_false_iff_not, not_lt]
  simp only [classifyRun, solid_map] at hconv ⊢
  rw [loop_count _ _ _ _ _ _ hconv, List.length_map, Nat.zero_add]
  have : (solid vs).length = (edges vs).length := by
    unfold solid
    rw [List.length_filter_eq_length_iff]
    intro e he
    exact (truthy_iff e).mpr (h e he)
  rw [this, edges_length]

/-- When the search is used and where it ends. -/
theorem tangents_search {s : Polygon K} (h20 : 20 < s.verts.length) (hk : s.isConvexKnown = true)
    (hc : s.isConvex.1 = true) (hd : s.isConvex.2.dupeVerts = some false) (p : Vec2 K) :
    (s.tangentsToPointC p).steps = (leftTanC s.verts p).steps + (rightTanC s.verts p).steps := by
  have h0 : s.isConvexC.steps = 0 := (C86_is_convex s).2.1 hk
  have hv := isConvex_verts s
  unfold tangentsToPointC
  rw [if_pos h20, andThen_steps, isConvexC_val, h0]
  obtain ⟨i, i1, i2, i3⟩ := leftTan_total s.verts p (by omega)
  rw [if_pos (by rw [hc, hd]; rfl), andThen_steps, leftTanC_val, hv, i1]
  simp only [pyGet_atZ s.verts i (by omega) (by omega), andThen_steps, ret_steps]
  omega

/-- The flags after a history. -/
theorem flags_known {eps : K} {vs : List (Vec2 K)} {s0 : Polygon K} (h : Polygon.new vs = .ok s0) (ops : List (PolyOp K))
    (h20 : 20 < (s0.after eps ops).verts.length) (hc : (s0.after eps ops).isConvex.1 = true)
    (hf : ¬ Flat (s0.after eps ops).verts) (hd : ∀ e ∈ edges (s0.after eps ops).verts, e.1 ≠ e.2) :
    (s0.after eps ops).isConvex.2.dupeVerts = some false ∧ Convex (s0.after eps ops).verts := by
  have h3 : 3 ≤ vs.length := by
    by_contra hc
    rw [(C43_new vs none none).1 (by omega)] at h
    simp at h
  have h0 := h
  rw [C44_fresh_new eps vs h3] at h0
  injection h0 with h0
  obtain ⟨i1, i2, -⟩ := inv_after (inv_fromPoints eps vs) ops
  rw [h0] at i1 i2
  obtain ⟨c1, -, -, -, -, c6⟩ := inv_isConvex i1
  generalize s0.after eps ops = s at *
  have hcv : cv s.verts = true := by rw [c1, convexVal, if_pos (by omega)] at hc; exact hc
  have hdg : dg s.verts = false := by
    by_contra hd
    rw [Bool.not_eq_false] at hd
    exact hf (flat_of_dg hcv hd)
  have hdu : s.isConvex.2.dupeVerts = some false := by
    rw [c6, hcv, hdg, dv_of_distinct hcv hd]
    simp; omega
  refine ⟨hdu, ?_⟩
  refine convex_of_cv (by omega) ?_ hcv
  obtain ⟨e, he, hev⟩ := edges_last (vs := s.verts) (by omega)
  have hee := hd e (List.mem_of_getLast? he)
  rw [← truthy_iff] at hee
  intro hc
  rw [hev, hc] at hee
  simp [Vec2.truthy] at hee

/-- **C87** after every history of reads and edits, a polygon with more than 20 vertices that is known to be convex, is not
flat and has no two equal neighbours, and a point outside it that is neither on the lines of two consecutive edges nor on
the line of an edge with all vertices on its left as seen from the point: at most `2 log2 n` steps (rounded up).
(Partial: `C87_declared` and `C87_violated` show what is missing of the documented logarithmic time.) -/
theorem C87_fast_partial (eps : K) (vs : List (Vec2 K)) (s0 : Polygon K) (h : Polygon.new vs = .ok s0) (ops : List (PolyOp K))
    (h20 : 20 < (s0.after eps ops).verts.length) (hk : (s0.after eps ops).isConvexKnown = true)
    (hc : (s0.after eps ops).isConvex.1 = true) (hf : ¬ Flat (s0.after eps ops).verts)
    (hd : ∀ e ∈ edges (s0.after eps ops).verts, e.1 ≠ e.2) (p : Vec2 K) (hp : ¬ InHull (s0.after eps ops).verts p)
    (h1 : ∀ e ∈ edges (s0.after eps ops).verts, ∀ f ∈ edges (s0.after eps ops).verts, e.2 = f.1 →
      ¬ (side e.1 e.2 p = 0 ∧ side f.1 f.2 p = 0))
    (h2 : ∀ e ∈ edges (s0.after eps ops).verts, side e.1 e.2 p = 0 → ∃ v ∈ (s0.after eps ops).verts, side p e.1 v < 0) :
    ((s0.after eps ops).tangentsToPointC p).steps ≤ 2 * Nat.clog 2 (s0.after eps ops).verts.length := by
  obtain ⟨hdu, hcx⟩ := flags_known h ops h20 hc hf hd
  generalize s0.after eps ops = s at *
  rw [tangents_search h20 hk hc hdu p]
  obtain ⟨F, hF⟩ := slope (vs := s.verts) (by intro e; rw [e] at h20; simp at h20) hp
  obtain ⟨a, b⟩ := fast_steps (by omega) hcx hd hF (fun e he f hf hef h0 h0' => h1 e he f hf hef ⟨h0, h0'⟩)
    (Nat.clog 2 s.verts.length) (Nat.le_pow_clog (by omega) _)
  have := b fun e he h0 => by
    obtain ⟨v, hv, hv'⟩ := h2 e he h0
    exact ⟨v, hv, by rw [turn_eq_side]; exact hv'⟩
  omega

end Exact

/-! ### slow points -/
section Slow

private instance : DecidableEq (Vec2 ℚ) := fun a b => decidable_of_iff (a.x = b.x ∧ a.y = b.y) Vec2.ext_iff.symm

/-- `n` vertices of a parabola. -/
def parabolaN (n : ℕ) : List (Vec2 ℚ) := (List.range n).map fun i : ℕ => ⟨i, i * i⟩

@[simp] theorem parabolaN_length (n : ℕ) : (parabolaN n).length = n := by simp [parabolaN]

theorem parabolaN_at {n i : ℕ} (h : i < n) : atZ (parabolaN n) (i : ℤ) = ⟨i, i * i⟩ := by
  rw [atZ_lt _ _ (by simpa using h)]
  simp [parabolaN]

theorem parabolaN_last {n : ℕ} (h : 0 < n) : atZ (parabolaN n) (-1) = ⟨(n : ℚ) - 1, ((n : ℚ) - 1) * ((n : ℚ) - 1)⟩ := by
  have e : atZ (parabolaN n) (-1) = atZ (parabolaN n) ((n - 1 : ℕ) : ℤ) := by
    apply atZ_congr
    rw [Int.modEq_iff_dvd]
    exact ⟨1, by rw [parabolaN_length]; push_cast [Nat.cast_sub (show 1 ≤ n from h)]; ring⟩
  rw [e, parabolaN_at (by omega)]
  push_cast [Nat.cast_sub (show 1 ≤ n from h)]
  rfl

theorem parabolaN_edge {n : ℕ} (h : 2 ≤ n) {e : Vec2 ℚ × Vec2 ℚ} (he : e ∈ edges (parabolaN n)) :
    e = (⟨(n : ℚ) - 1, ((n : ℚ) - 1) * ((n : ℚ) - 1)⟩, ⟨0, 0⟩) ∨
    ∃ k : ℕ, 1 ≤ k ∧ k < n ∧ e = (⟨(k : ℚ) - 1, ((k : ℚ) - 1) * ((k : ℚ) - 1)⟩, ⟨k, k * k⟩) := by
  rw [edges_atZ _ (by simpa using h), List.mem_map] at he
  obtain ⟨k, hk, rfl⟩ := he
  rw [List.mem_range, parabolaN_length] at hk
  rcases Nat.eq_zero_or_pos k with rfl | hk0
  · left
    rw [show (((0 : ℕ) : ℤ) - 1) = -1 by norm_num, parabolaN_last (by omega), parabolaN_at (by omega)]
    simp
  · right
    refine ⟨k, hk0, hk, ?_⟩
    rw [parabolaN_at hk, show ((k : ℤ) - 1) = ((k - 1 : ℕ) : ℤ) by push_cast [Nat.cast_sub hk0]; ring, parabolaN_at (by omega)]
    push_cast [Nat.cast_sub hk0]
    rfl

theorem parabolaN_mem {n : ℕ} {v : Vec2 ℚ} : v ∈ parabolaN n ↔ ∃ j : ℕ, j < n ∧ v = ⟨j, j * j⟩ := by
  simp [parabolaN, eq_comm]

theorem parabolaN_convex {n : ℕ} (h : 3 ≤ n) : Convex (parabolaN n) := by
  constructor
  · left
    intro e he v hv
    obtain ⟨j, hj, rfl⟩ := parabolaN_mem.mp hv
    have hjn : (j : ℚ) ≤ n - 1 := by
      have : ((j + 1 : ℕ) : ℚ) ≤ n := by exact_mod_cast hj
      push_cast at this; linarith
    have hn : (1 : ℚ) ≤ n := by exact_mod_cast (show 1 ≤ n by omega)
    rcases parabolaN_edge (by omega) he with rfl | ⟨k, k1, k2, rfl⟩
    · have : side (⟨(n : ℚ) - 1, ((n : ℚ) - 1) * ((n : ℚ) - 1)⟩ : Vec2 ℚ) ⟨0, 0⟩ ⟨j, j * j⟩ = ((n : ℚ) - 1) * (j * (n - 1 - j)) := by
        simp only [side]; ring
      simp only [this]
      exact mul_nonneg (by linarith) (mul_nonneg (Nat.cast_nonneg _) (by linarith))
    · have : side (⟨(k : ℚ) - 1, ((k : ℚ) - 1) * ((k : ℚ) - 1)⟩ : Vec2 ℚ) ⟨k, k * k⟩ ⟨j, j * j⟩ = ((j : ℚ) - k + 1) * (j - k) := by
        simp only [side]; ring
      simp only [this]
      rcases Nat.lt_or_ge j k with g | g
      · have : ((j + 1 : ℕ) : ℚ) ≤ k := by exact_mod_cast g
        push_cast at this
        exact mul_nonneg_of_nonpos_of_nonpos (by linarith) (by linarith)
      · have : (k : ℚ) ≤ j := by exact_mod_cast g
        exact mul_nonneg (by linarith) (by linarith)
  · have hE := edges_atZ (parabolaN n) (by simp; omega)
    obtain ⟨m, rfl⟩ : ∃ m, n = m + 1 := ⟨n - 1, by omega⟩
    rw [parabolaN_length, List.range_succ_eq_map, List.map_cons] at hE
    refine ⟨(List.map Nat.succ (List.range m)).map fun (i : ℕ) => (atZ (parabolaN (m + 1)) ((i : ℤ) - 1), atZ (parabolaN (m + 1)) i),
      [(atZ (parabolaN (m + 1)) (((0 : ℕ) : ℤ) - 1), atZ (parabolaN (m + 1)) ((0 : ℕ) : ℤ))], ?_, ?_, ?_⟩
    · rw [hE]
      exact ⟨1, by simp⟩
    · intro e he
      rw [List.map_map, List.mem_map] at he
      obtain ⟨i, hi, rfl⟩ := he
      rw [List.mem_range] at hi
      simp only [Function.comp, Nat.succ_eq_add_one]
      rw [show (((i + 1 : ℕ) : ℤ) - 1) = (i : ℤ) by push_cast; ring, parabolaN_at (by omega), parabolaN_at (by omega)]
      left
      push_cast
      linarith
    · intro e he
      rw [List.mem_singleton] at he
      subst he
      rw [show (((0 : ℕ) : ℤ) - 1) = -1 by norm_num, parabolaN_last (by omega), parabolaN_at (by omega)]
      left
      have : (3 : ℚ) ≤ ((m + 1 : ℕ) : ℚ) := by exact_mod_cast h
      simp only
      push_cast at this ⊢
      linarith

theorem parabolaN_distinct {n : ℕ} (h : 3 ≤ n) : ∀ e ∈ edges (parabolaN n), e.1 ≠ e.2 := by
  intro e he
  have hn : (3 : ℚ) ≤ n := by exact_mod_cast h
  rcases parabolaN_edge (by omega) he with rfl | ⟨k, k1, k2, rfl⟩
  · intro hc
    have := congrArg Vec2.x hc
    simp only at this
    linarith
  · intro hc
    have := congrArg Vec2.x hc
    simp only at this
    linarith

/-- **C87** (the documented logarithmic time) is violated for every number `n > 20` of vertices: there are a strictly convex
polygon with `n` vertices and a point outside it for which, even when the polygon is known to be convex, the search takes
at least `n` steps. (The point is on the line through the last and the first vertex.) -/
theorem C87_violated (eps : ℚ) (n : ℕ) (hn : 20 < n) : ∃ (s0 : Polygon ℚ) (p : Vec2 ℚ),
    Polygon.new (parabolaN n) = .ok s0 ∧ Convex (parabolaN n) ∧ (∀ e ∈ edges (parabolaN n), e.1 ≠ e.2) ∧ ¬ Flat (parabolaN n) ∧
    ¬ InHull (parabolaN n) p ∧ (s0.after eps [.isConvex]).isConvexKnown = true ∧
    (s0.after eps [.isConvex]).isConvex.1 = true ∧
    n ≤ ((s0.after eps [.isConvex]).tangentsToPointC p).steps := by
  have hq : (20 : ℚ) < n := by exact_mod_cast hn
  have hnew := C44_fresh_new eps (parabolaN n) (by simp; omega)
  have hflat : ¬ Flat (parabolaN n) := by
    intro hf
    have := hf ⟨0, 0⟩ (parabolaN_mem.mpr ⟨0, by omega, by simp⟩) ⟨1, 1⟩ (parabolaN_mem.mpr ⟨1, by omega, by simp⟩) ⟨2, 4⟩
      (parabolaN_mem.mpr ⟨2, by omega, by norm_num⟩)
    norm_num [side] at this
  have hp : ¬ InHull (parabolaN n) ⟨n, n * (n - 1)⟩ := by
    apply outside_of 1 0
    intro v hv
    obtain ⟨j, hj, rfl⟩ := parabolaN_mem.mp hv
    have : (j : ℚ) < n := by exact_mod_cast hj
    simp only
    linarith
  have hcx := parabolaN_convex (show 3 ≤ n by omega)
  have hd := parabolaN_distinct (show 3 ≤ n by omega)
  refine ⟨_, ⟨n, n * (n - 1)⟩, hnew, hcx, hd, hflat, hp, ?_⟩
  obtain ⟨j1, -, j3, j4, -⟩ := inv_isConvex (inv_fromPoints eps (parabolaN n))
  have hv : ((Polygon.fromPoints (parabolaN n)).after eps [.isConvex]).verts = parabolaN n := by
    simp only [Polygon.after, List.foldl, PolyOp.run]
    rw [j3]
    simp [Polygon.fromPoints, cleared, map_copy']
  have hcv : convexVal (parabolaN n) = true := by
    unfold convexVal
    rw [if_pos (by simp; omega)]
    exact cv_of_convex (by simp; omega) hcx
  have hk : ((Polygon.fromPoints (parabolaN n)).after eps [.isConvex]).convex = some true := by
    simp only [Polygon.after, List.foldl, PolyOp.run]
    rw [j4, ← hcv]
    simp [Polygon.fromPoints, cleared, map_copy']
  have hk' : ((Polygon.fromPoints (parabolaN n)).after eps [.isConvex]).isConvexKnown = true := by
    unfold isConvexKnown; rw [hk]; rfl
  have hc' : ((Polygon.fromPoints (parabolaN n)).after eps [.isConvex]).isConvex.1 = true := by
    unfold isConvex; rw [hk]
  refine ⟨hk', hc', ?_⟩
  have hl := flags_known (eps := eps) hnew [.isConvex] (by rw [hv]; simpa using hn) hc' (by rw [hv]; exact hflat) (by rw [hv]; exact hd)
  rw [tangents_search (by rw [hv]; simpa using hn) hk' hc' hl.1, hv]
  obtain ⟨F, hF⟩ := slope (vs := parabolaN n) (by intro e; have := parabolaN_length n; rw [e] at this; simp at this; omega) hp
  have S := sight (by simp; omega) hcx hd hF
  have z : atZ (parabolaN n) 0 = ⟨0, 0⟩ := by
    have := parabolaN_at (n := n) (i := 0) (by omega)
    simpa using this
  have m0 : (⟨0, 0⟩ : Vec2 ℚ) ∈ parabolaN n := parabolaN_mem.mpr ⟨0, by omega, by simp⟩
  have ml : (⟨(n : ℚ) - 1, ((n : ℚ) - 1) * ((n : ℚ) - 1)⟩ : Vec2 ℚ) ∈ parabolaN n :=
    parabolaN_mem.mpr ⟨n - 1, by omega, by push_cast [Nat.cast_sub (show 1 ≤ n by omega)]; rfl⟩
  have hr := rightTanC_slow (by simp; omega) S ?_ ?_
  · rw [hr]; simp
  · rw [parabolaN_last (by omega), z]
    apply le_antisymm
    · rw [← not_lt, ← hF _ m0 _ ml]
      simp only [turn]
      ring_nf
      simp
    · rw [← not_lt, ← hF _ ml _ m0]
      simp only [turn]
      ring_nf
      simp
  · intro i i1 i2
    rw [parabolaN_length] at i2
    obtain ⟨k, rfl⟩ : ∃ k : ℕ, i = k := ⟨i.toNat, by omega⟩
    rw [z, parabolaN_at (by omega), ← hF _ m0 _ (parabolaN_mem.mpr ⟨k, by omega, rfl⟩)]
    have k1 : (0 : ℚ) < k := by exact_mod_cast i1
    have k2 : (k : ℚ) < n - 1 := by
      have : ((k + 1 : ℕ) : ℚ) < n := by exact_mod_cast (show k + 1 < n by omega)
      push_cast at this; linarith
    have : turn (⟨n, n * (n - 1)⟩ : Vec2 ℚ) ⟨0, 0⟩ ⟨k, k * k⟩ = n * (k * (n - 1 - k)) := by
      simp only [turn]; ring
    rw [this]
    exact mul_pos (by linarith) (mul_pos k1 (by linarith))

/-- The hypotheses of `C87_fast_partial` are met by 23 vertices of a parabola seen from (3, -7): at most ten steps. -/
example : ((((Polygon.fromPoints parabola23).after 0 [.isConvex]).tangentsToPointC ⟨3, -7⟩).steps ≤ 10) := by
  have hv : ((Polygon.fromPoints parabola23).after 0 [.isConvex]).verts = parabola23 := by decide +kernel
  have := C87_fast_partial 0 parabola23 _ (C44_fresh_new 0 parabola23 (by decide +kernel)) [.isConvex] (by decide +kernel)
    (by decide +kernel) (by decide +kernel)
    (by
      rw [hv]; intro hf
      have := hf ⟨0, 0⟩ (by decide +kernel) ⟨1, 1⟩ (by decide +kernel) ⟨2, 4⟩ (by decide +kernel)
      norm_num [side] at this)
    (by rw [hv]; decide +kernel) ⟨3, -7⟩ (by rw [hv]; exact outside_of 0 (-1) (by decide +kernel))
    (by
      rw [hv]
      intro e he f _ _ h
      have : ∀ e ∈ edges parabola23, side e.1 e.2 (⟨3, -7⟩ : Vec2 ℚ) ≠ 0 := by decide +kernel
      exact this e he h.1)
    (by
      rw [hv]
      intro e he h
      have : ∀ e ∈ edges parabola23, side e.1 e.2 (⟨3, -7⟩ : Vec2 ℚ) ≠ 0 := by decide +kernel
      exact absurd h (this e he))
  rw [hv] at this
  have h5 : Nat.clog 2 parabola23.length = 5 := by decide +kernel
  rw [h5] at this
  exact this

end Slow
end Planar
