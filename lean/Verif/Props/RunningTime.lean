import Verif.Lemmas.Cost
import Verif.Props.NoRaise
import Verif.Props.ConvexExact
import Verif.Lemmas.CastPoly
/- C86: how long `contains_point`, `is_convex`, `is_simple`, `centroid` and `bounding_box` take. Steps are counted by the
counted versions of the functions in Model/Cost. -/
set_option linter.unusedSectionVars false
namespace Planar
open Polygon Spec

section Free
/- Nothing at all is assumed of the numbers: rounding, overflow, infinities and NaN are all allowed. -/
variable {K : Type} [Add K] [Sub K] [Mul K] [Div K] [Neg K] [Zero K] [One K] [BEq K] [LT K] [LE K]
  [DecidableLT K] [DecidableLE K]

/-- **C86** the counted functions give the answers, raise the exceptions and leave the objects of the uncounted ones. -/
theorem C86_same_answers (eps : K) (s : Polygon K) (p : PyPoint K) :
    (s.containsPointC eps p).val = s.containsPoint eps p ∧ s.isConvexC.val = s.isConvex ∧ s.isSimpleC.val = s.isSimple ∧
    s.getCentroidC.val = s.getCentroid ∧ s.boundingBoxC.val = s.boundingBox :=
  ⟨containsPointC_val eps s p, isConvexC_val s, isSimpleC_val s, getCentroidC_val s, boundingBoxC_val s⟩

/-- **C86** a triangle answers in at most four steps. -/
theorem C86_triangle (eps : K) (s : Polygon K) (p : PyPoint K) (h : s.verts.length = 3) :
    (s.containsPointC eps p).steps ≤ 4 := by
  unfold containsPointC
  simp only
  rw [if_pos h]
  exact pnpTriangleC_steps eps s p

/-- **C86** when the centroid and a radius are known and decide, the answer takes one step. -/
theorem C86_radial (eps : K) (s : Polygon K) (p : PyPoint K) (h : 4 < s.verts.length) (c : Vec2 K) (hc : s.centroid = some (some c))
    (hr : (∃ r, s.minR2 = some r ∧ (c - p.toVec).length2 < r) ∨ (∃ r, s.maxR2 = some r ∧ (c - p.toVec).length2 > r)) :
    (s.containsPointC eps p).steps = 1 := by
  rw [containsPointC_radial eps s p (by omega)]
  have : ∃ b, radialOf s p = .ok (some b) := by
    unfold radialOf
    rw [hc]
    simp only [gt_iff_lt, h, if_true]
    rcases hr with ⟨r, h1, h2⟩ | ⟨r, h1, h2⟩
    · rw [h1]; exact ⟨true, by simp [h2]⟩
    · rw [h1]
      rcases hm : s.minR2 with _ | r'
      · exact ⟨false, by simp [gt_iff_lt.mp h2]⟩
      · by_cases h3 : (c - p.toVec).length2 < r'
        · exact ⟨true, by simp [h3]⟩
        · exact ⟨false, by simp [h3, gt_iff_lt.mp h2]⟩
  obtain ⟨b, hb⟩ := this
  rw [hb]
  rfl

/-- Containment with the polylines at hand. -/
theorem contains_log {s : Polygon K} (hs : Sound s) (eps : K) (p : PyPoint K) (h3 : s.verts.length ≠ 3)
    (hy : s.yPolylines ≠ none) : (s.containsPointC eps p).steps ≤ 3 + 2 * Nat.log2 (s.verts.length + 1) := by
  rw [containsPointC_radial eps s p h3]
  rw [tick_steps]
  rcases radialOf s p with e | _ | b
  · simp only [ret_steps]; omega
  · simp only
    rcases hp : s.yPolylines with _ | pls
    · exact absurd hp hy
    · have hl := splitYPolylines_length s.verts
      rw [← hs.ypl pls hp] at hl
      have hk := Nat.lt_log2_self (n := s.verts.length + 1)
      have := pnpYMonotoneC_steps pls p.toVec (Nat.log2 (s.verts.length + 1) + 1) (by omega) (by omega)
      simp only [andThen_steps, ret_steps]
      omega
  · simp only [ret_steps]; omega

/-- **C86** every polygon object a program can hold answers `contains_point` in at most `2 n + 1` steps, whatever the
point. -/
theorem C86_contains_linear [PyMath K] (eps : K) (order) (s : Polygon K) (h : Reachable eps order s) (p : PyPoint K) :
    (s.containsPointC eps p).steps ≤ 2 * s.verts.length + 1 := by
  have hs := Sound.reachable h
  have hl := hs.long
  by_cases h3 : s.verts.length = 3
  · have := C86_triangle eps s p h3; omega
  · rw [containsPointC_radial eps s p h3, tick_steps]
    rcases radialOf s p with e | _ | b
    · simp
    · simp only
      rcases hp : s.yPolylines with _ | pls
      · simp only
        split_ifs with h4
        · simp only [andThen_steps, ret_steps, pnpWindingC_steps]; omega
        · rw [andThen_steps, boundingBoxC_val]
          have hb := boundingBoxC_steps s
          have hv : s.boundingBox.2.verts = s.verts := by
            unfold boundingBox; split
            · rfl
            · split <;> rfl
          have hb' : s.boundingBoxC.steps ≤ s.verts.length := by rw [hb]; split_ifs <;> omega
          rcases hbb : s.boundingBox with ⟨e | b, t⟩
          · simp only [ret_steps]; omega
          · rw [hbb] at hv
            simp only at hv
            simp only
            split_ifs
            · simp only [andThen_steps, ret_steps, pnpWindingC_steps, hv]; omega
            · simp only [ret_steps]; omega
      · have hll := splitYPolylines_length s.verts
        rw [← hs.ypl pls hp] at hll
        have hk : s.verts.length + 1 < 2 ^ s.verts.length := by
          clear hll hp h3 hs h
          induction hn : s.verts.length with
          | zero => omega
          | succ n ih => 
            have : ∀ m : Nat, 3 ≤ m → m + 1 < 2 ^ m := by
              intro m hm
              induction m with
              | zero => omega
              | succ m ih =>
                rcases Nat.lt_or_ge m 3 with g | g
                · have : m = 2 := by omega
                  subst this; norm_num
                · have := ih g
                  rw [Nat.pow_succ]; omega
            exact this (n + 1) (by omega)
        have := pnpYMonotoneC_steps pls p.toVec s.verts.length (by omega) (by omega)
        simp only [andThen_steps, ret_steps]
        omega
    · simp

/-- **C86** `bounding_box` takes `n` steps the first time and none after that. -/
theorem C86_bounding_box (s : Polygon K) :
    s.boundingBoxC.steps ≤ s.verts.length ∧ (s.verts ≠ [] → s.boundingBox.2.boundingBoxC.steps = 0) := by
  refine ⟨?_, fun hne => ?_⟩
  · rw [boundingBoxC_steps]; split_ifs <;> omega
  · rw [boundingBoxC_steps]
    have : s.boundingBox.2.bbox.isSome = true := by
      unfold boundingBox
      cases hb : s.bbox with
      | some b => simp [hb]
      | none =>
        obtain ⟨a, l, e⟩ : ∃ a l, s.verts = a :: l := by
          cases hv : s.verts with
          | nil => exact absurd hv hne
          | cons a l => exact ⟨a, l, rfl⟩
        simp [e, Box.fromPoints]
    rw [if_pos this]

/-- **C86** `is_convex` takes at most `3 n + 2` steps, and none once it is known. -/
theorem C86_is_convex (s : Polygon K) : s.isConvexC.steps ≤ 3 * s.verts.length + 2 ∧
    (s.isConvexKnown = true → s.isConvexC.steps = 0) ∧ s.isConvex.2.isConvexC.steps = 0 := by
  have h := isConvexC_steps s
  refine ⟨by split_ifs at h <;> omega, fun hk => ?_, ?_⟩
  · unfold isConvexKnown at hk; rw [hk] at h; simpa using h
  · have : s.isConvex.2.convex.isSome = true := by
      unfold isConvex
      cases hc : s.convex with
      | some b => simp [hc]
      | none =>
        simp only
        unfold classify
        simp only
        split_ifs <;> rfl
    have h := isConvexC_steps s.isConvex.2
    rw [this] at h
    simpa using h

/-- The steps of `is_simple`. -/
theorem isSimpleC_steps (s : Polygon K) :
    s.isSimpleC.steps ≤ (3 * s.verts.length + 2) + (2 * s.verts.length * s.verts.length + 2 * s.verts.length + sortCharge (2 * s.verts.length)) ∧
    (s.simple.isSome = true → s.isSimpleC.steps = 0) ∧
    ((s.classify.simple = some true ∧ s.convex = none) → s.isSimpleC.steps ≤ 3 * s.verts.length + 2) := by
  unfold isSimpleC
  cases hs : s.simple with
  | some b => simp
  | none =>
    simp only [Option.isSome_none, Bool.false_eq_true, false_implies, true_and, andThen_steps]
    cases hc : s.convex with
    | none =>
      have h1 := classifyC_steps s
      have hv := (classify_free s).1
      simp only [classifyC_val]
      cases hq : s.classify.simple with
      | some b => simp only [ret_steps]; omega
      | none =>
        have h2 := checkSimpleC_steps s.classify.verts
        rw [hv] at h2 ⊢
        simp only [andThen_steps, ret_steps]
        refine ⟨by omega, fun h => by simp at h⟩
    | some c =>
      simp only [ret_val, ret_steps, hs]
      have h2 := checkSimpleC_steps s.verts
      simp only [andThen_steps, ret_steps]
      refine ⟨by omega, fun h => by simp at h⟩

/-- **C86** `is_simple` takes no step once it is known, at most `3 n + 2` when the polygon turns out to be convex, and in
any case a number of steps quadratic in `n`. -/
theorem C86_is_simple (s : Polygon K) :
    s.isSimpleC.steps ≤ 2 * s.verts.length ^ 2 + 5 * s.verts.length + 2 + sortCharge (2 * s.verts.length) ∧
    (s.isSimpleKnown = true → s.isSimpleC.steps = 0) ∧
    (s.isConvexKnown = false → s.isConvex.1 = true → s.isSimpleC.steps ≤ 3 * s.verts.length + 2) := by
  obtain ⟨h1, h2, h3⟩ := isSimpleC_steps s
  refine ⟨?_, h2, ?_⟩
  · have : s.verts.length ^ 2 * 2 = 2 * s.verts.length * s.verts.length := by ring
    omega
  · intro hk hc
    have hn : s.convex = none := by
      unfold isConvexKnown at hk
      cases h : s.convex with
      | none => rfl
      | some b => rw [h] at hk; simp at hk
    refine h3 ⟨?_, hn⟩
    unfold isConvex at hc
    rw [hn] at hc
    simp only at hc
    unfold classify at hc ⊢
    simp only at hc ⊢
    split_ifs at hc ⊢ <;> simp_all

/-- **C86** `centroid` of a polygon known to be simple takes at most `n - 2` steps, none once it is known, and otherwise
no more than `n` steps more than `is_simple`. -/
theorem C86_centroid (s : Polygon K) : s.getCentroidC.steps ≤ s.isSimpleC.steps + s.verts.length ∧
    (s.isSimpleKnown = true → s.getCentroidC.steps ≤ s.verts.length - 2) ∧
    (s.isCentroidKnown = true → s.getCentroidC.steps = 0) := by
  have hv : s.isSimple.2.verts = s.verts := by
    have cl := (classify_free s).1
    unfold isSimple
    cases hs : s.simple with
    | some b => rfl
    | none =>
      cases hc : s.convex with
      | none =>
        cases hq : s.classify.simple <;> simp [hq, cl]
      | some c => simp [hs]
  unfold getCentroidC isCentroidKnown
  cases hc : s.centroid with
  | some c => simp
  | none =>
    have hcc := computeCentroidC_steps s.isSimple.2.verts
    rw [hv] at hcc
    have hk : s.isSimpleKnown = true → s.isSimpleC.steps = 0 := (C86_is_simple s).2.1
    simp only [andThen_steps, isSimpleC_val]
    refine ⟨?_, fun h => ?_, by simp⟩
    · split_ifs
      · simp only [andThen_steps, ret_steps, hv]; omega
      · simp only [ret_steps]; omega
    · rw [hk h]
      split_ifs
      · simp only [andThen_steps, ret_steps, hv]; omega
      · simp only [ret_steps]; omega

/-! ### declared convex polygons -/

/-- What a declaration of convexity leaves behind, with (`y`) or without polylines. -/
structure DeclaredConvex (y : Bool) (s : Polygon K) : Prop where
  long : 3 < s.verts.length
  convex : s.convex = some true
  simple : s.simple = some true
  ypl : s.yPolylines.isSome = y

/-- No radius and no centroid that does not exist. -/
structure NoRadii (s : Polygon K) : Prop where
  cen : s.centroid ≠ some none
  minR2 : s.minR2 = none
  maxR2 : s.maxR2 = none

theorem DeclaredConvex.run {y : Bool} {s : Polygon K} (h : DeclaredConvex y s) (eps : K) (o : PolyOp K) (ho : o.isRead = true) :
    DeclaredConvex y (o.run eps s) ∧ (o.run eps s).verts = s.verts ∧ (o.run eps s).dupeVerts = s.dupeVerts ∧
    (NoRadii s → NoRadii (o.run eps s)) := by
  have hb : DeclaredConvex y s.boundingBox.2 ∧ s.boundingBox.2.verts = s.verts ∧ s.boundingBox.2.dupeVerts = s.dupeVerts ∧
      (NoRadii s → NoRadii s.boundingBox.2) := by
    unfold boundingBox
    split
    · exact ⟨h, rfl, rfl, id⟩
    · split
      · exact ⟨h, rfl, rfl, id⟩
      · exact ⟨⟨h.long, h.convex, h.simple, h.ypl⟩, rfl, rfl, fun g => ⟨g.cen, g.minR2, g.maxR2⟩⟩
  have hi : s.isConvex = (true, s) := by unfold isConvex; rw [h.convex]
  have hsim : s.isSimple = (true, s) := by unfold isSimple; rw [h.simple]
  cases o with
  | setItem i v => simp [PolyOp.isRead] at ho
  | imul T => simp [PolyOp.isRead] at ho
  | isConvex => simp only [PolyOp.run, hi]; exact ⟨h, trivial, trivial, id⟩
  | isSimple => simp only [PolyOp.run, hsim]; exact ⟨h, trivial, trivial, id⟩
  | centroid =>
    simp only [PolyOp.run]
    unfold getCentroid
    split
    · exact ⟨h, rfl, rfl, id⟩
    · simp only [hsim, if_true]
      split
      · exact ⟨h, rfl, rfl, id⟩
      · exact ⟨⟨h.long, h.convex, h.simple, h.ypl⟩, rfl, rfl, fun g => ⟨by simp, g.minR2, g.maxR2⟩⟩
  | boundingBox => exact hb
  | contains p =>
    simp only [PolyOp.run]
    rw [containsPoint_radial eps s p (by have := h.long; omega)]
    rcases radialOf s p with e | _ | b
    · exact ⟨h, rfl, rfl, id⟩
    · simp only
      split
      · exact ⟨h, rfl, rfl, id⟩
      · split
        · exact ⟨h, rfl, rfl, id⟩
        · split
          · rename_i heq; rw [heq] at hb; exact hb
          · rename_i heq; rw [heq] at hb
            split <;> exact hb
    · exact ⟨h, rfl, rfl, id⟩
  | tangents p =>
    simp only [PolyOp.run]
    unfold tangentsToPoint
    simp only [hi]
    split
    · split <;> exact ⟨h, rfl, rfl, id⟩
    · exact ⟨h, rfl, rfl, id⟩

theorem DeclaredConvex.after {y : Bool} {s : Polygon K} (h : DeclaredConvex y s) (eps : K) (ops : List (PolyOp K))
    (ho : ∀ o ∈ ops, o.isRead = true) : DeclaredConvex y (s.after eps ops) ∧ (s.after eps ops).verts = s.verts ∧
    (s.after eps ops).dupeVerts = s.dupeVerts ∧ (NoRadii s → NoRadii (s.after eps ops)) := by
  induction ops generalizing s with
  | nil => exact ⟨h, rfl, rfl, id⟩
  | cons o ops ih =>
    obtain ⟨h1, h2, h2', h2''⟩ := h.run eps o (ho o (by simp))
    obtain ⟨h3, h4, h4', h4''⟩ := ih h1 fun o' h' => ho o' (by simp [h'])
    exact ⟨h3, h4.trans h2, h4'.trans h2', fun g => h4'' (h2'' g)⟩

theorem sound_after {s : Polygon K} (h : Sound s) (eps : K) (ops : List (PolyOp K)) : Sound (s.after eps ops) := by
  induction ops generalizing s with
  | nil => exact h
  | cons o ops ih => exact ih (h.run eps o)

theorem declared_new {vs : List (Vec2 K)} {s : Polygon K} (h3 : 3 < vs.length) (h : Polygon.new vs (some true) none = .ok s) :
    DeclaredConvex true s ∧ NoRadii s ∧ s.verts.length = vs.length ∧ s.dupeVerts = none := by
  unfold Polygon.new at h
  simp only [List.length_map] at h
  rw [if_neg (by omega)] at h
  have hl : (vs.map Vec2.copy).length > 3 := by simpa using h3
  simp only [cleared, hl, if_true, Bool.true_and, decide_true, List.length_map, h3, gt_iff_lt, Except.ok.injEq] at h
  subst h
  exact ⟨⟨by simpa using h3, rfl, rfl, rfl⟩, ⟨by simp, rfl, rfl⟩, by simp, rfl⟩

/-- **C86** a polygon declared convex (`Polygon(vs, is_convex=True)`, or the hull of points) with more than three
vertices answers `contains_point` in at most `3 + 2 log2 (n + 1)` steps, after every history of reads. -/
theorem C86_contains_declared (eps : K) (vs : List (Vec2 K)) (h3 : 3 < vs.length) (s0 : Polygon K)
    (h : Polygon.new vs (some true) none = .ok s0) (ops : List (PolyOp K)) (ho : ∀ o ∈ ops, o.isRead = true) (p : PyPoint K) :
    ((s0.after eps ops).containsPointC eps p).steps ≤ 3 + 2 * Nat.log2 (vs.length + 1) := by
  obtain ⟨d, -, dl, -⟩ := declared_new h3 h
  obtain ⟨d1, d2, -⟩ := d.after eps ops ho
  have := contains_log (sound_after (Sound.new h) eps ops) eps p (by have := d1.long; omega)
    (by have := d1.ypl; intro e; rw [e] at this; simp at this)
  rw [d2, dl] at this
  exact this

/-- **C86** the same for regular polygons. -/
theorem C86_contains_regular [PyMath K] (eps : K) (n : Int) (h3 : 3 < n) (r : K) (c : Vec2 K) (a : K) (s0 : Polygon K)
    (h : Polygon.regular n r c a = .ok s0) (ops : List (PolyOp K)) (ho : ∀ o ∈ ops, o.isRead = true) (p : PyPoint K) :
    ((s0.after eps ops).containsPointC eps p).steps ≤ 3 + 2 * Nat.log2 (n.toNat + 1) := by
  have hso := Sound.reachable (Reachable.regular (eps := eps) (order := id) n r c a s0 h)
  unfold Polygon.regular at h
  simp only [bind, Except.bind, pure, Except.pure] at h
  split at h
  · cases h
  · rename_i step _
    split at h
    · cases h
    · rename_i s1 hs1
      have hl : (regularVerts step r c n.toNat a).length = n.toNat := by
        have : ∀ (m : Nat) (b : K), (regularVerts step r c m b).length = m := by
          intro m
          induction m with
          | zero => intro b; rfl
          | succ m ih => intro b; simp [regularVerts, ih]
        exact this _ _
      obtain ⟨d, -, dl, -⟩ := declared_new (by rw [hl]; omega) hs1
      injection h with h
      have d0 : DeclaredConvex true s0 := by subst h; exact ⟨d.long, d.convex, d.simple, d.ypl⟩
      have dl0 : s0.verts.length = n.toNat := by subst h; exact dl.trans hl
      obtain ⟨d1, d2, -⟩ := d0.after eps ops ho
      have := contains_log (sound_after hso eps ops) eps p (by have := d1.long; omega)
        (by have := d1.ypl; intro e; rw [e] at this; simp at this)
      rw [d2, dl0] at this
      exact this

/-- **C86** is violated by deep copies: a deep copy of a polygon declared convex with more than four vertices still says
that it is convex, but whatever is read from it, `contains_point` goes through all its vertices for every point in its
bounding box. -/
theorem C86_violated (eps : K) (vs : List (Vec2 K)) (h4 : 4 < vs.length) (s0 : Polygon K)
    (h : Polygon.new vs (some true) none = .ok s0) (ops : List (PolyOp K)) (ho : ∀ o ∈ ops, o.isRead = true) (p : PyPoint K)
    (b : Box K) (hb : (s0.deepcopy.after eps ops).boundingBox.1 = .ok b) (hp : b.containsPoint p.toVec = true) :
    (s0.deepcopy.after eps ops).isConvexKnown = true ∧ (s0.deepcopy.after eps ops).isConvex.1 = true ∧
    vs.length ≤ ((s0.deepcopy.after eps ops).containsPointC eps p).steps := by
  obtain ⟨d, r, dl, -⟩ := declared_new (by omega) h
  have d' : DeclaredConvex false s0.deepcopy := ⟨d.long, d.convex, d.simple, rfl⟩
  obtain ⟨d1, d2, -, d3⟩ := d'.after eps ops ho
  have d3 := d3 ⟨r.cen, r.minR2, r.maxR2⟩
  have dv : (s0.deepcopy.after eps ops).verts.length = vs.length := by rw [d2]; exact dl
  generalize s0.deepcopy.after eps ops = t at *
  refine ⟨by unfold isConvexKnown; rw [d1.convex]; rfl, by unfold isConvex; rw [d1.convex], ?_⟩
  rw [containsPointC_radial eps t p (by omega), tick_steps]
  have hr : radialOf t p = .ok none := by
    unfold radialOf
    rcases hc : t.centroid with _ | _ | c
    · rfl
    · exact absurd hc d3.cen
    · simp [d3.minR2, d3.maxR2]
  have hy : t.yPolylines = none := by
    have := d1.ypl
    cases hh : t.yPolylines with
    | none => rfl
    | some x => rw [hh] at this; simp at this
  rw [hr, hy]
  simp only
  rw [if_neg (by omega), andThen_steps, boundingBoxC_val]
  have hv : t.boundingBox.2.verts = t.verts := by
    unfold boundingBox; split
    · rfl
    · split <;> rfl
  rcases hbb : t.boundingBox with ⟨e | b', t'⟩
  · rw [hbb] at hb; simp at hb
  · rw [hbb] at hb hv
    simp only [Except.ok.injEq] at hb
    simp only at hv
    simp only [hb, hp, if_true, andThen_steps, ret_steps, pnpWindingC_steps, hv, dv]
    omega

end Free

section Exact
variable {K : Type} [Field K] [LinearOrder K] [IsStrictOrderedRing K]

/-- **C86** a polygon that is convex and not flat, once `is_convex` has been read or has been found out otherwise, answers
`contains_point` in at most `3 + 2 log2 (n + 1)` steps, after every history of reads and edits. (Partial: deep copies and
flat polygons are slower, see `C86_violated`.) -/
theorem C86_contains_convex_partial (eps : K) (vs : List (Vec2 K)) (s0 : Polygon K) (h : Polygon.new vs = .ok s0)
    (ops : List (PolyOp K)) (hk : (s0.after eps ops).isConvexKnown = true) (hc : (s0.after eps ops).isConvex.1 = true)
    (hf : ¬ Flat (s0.after eps ops).verts) (p : PyPoint K) :
    ((s0.after eps ops).containsPointC eps p).steps ≤ 3 + 2 * Nat.log2 ((s0.after eps ops).verts.length + 1) := by
  have hs := sound_after (Sound.new h) eps ops
  obtain ⟨hl, hv⟩ := isConvex_after (eps := eps) h ops
  have h3 : 3 ≤ vs.length := by
    by_contra hc
    rw [(C43_new vs none none).1 (by omega)] at h
    simp at h
  rw [C44_fresh_new eps vs h3] at h
  injection h with h
  subst h
  obtain ⟨i1, i2, -⟩ := inv_after (inv_fromPoints eps vs) ops
  generalize (Polygon.fromPoints vs).after eps ops = s at *
  by_cases hn : s.verts.length = 3
  · have := C86_triangle eps s p hn
    have h2 : Nat.log2 (3 + 1) = 2 := by decide
    rw [hn, h2]
    omega
  · have h4 : 3 < s.verts.length := by omega
    rcases i1.long h4 with hu | hcl
    · unfold isConvexKnown at hk; rw [hu.convex] at hk; simp at hk
    · refine contains_log hs eps p hn ?_
      rw [hcl.ypl]
      have hcv : cv s.verts = true := by rw [hv, convexVal, if_pos h4] at hc; exact hc
      have hdg : dg s.verts = false := by
        by_contra hd
        rw [Bool.not_eq_false] at hd
        exact hf (flat_of_dg hcv hd)
      simp [hcv, hdg]

end Exact
/-! ### the hypotheses are met -/
section Examples

/-- An octagon of integer points. -/
def octagon : List (Vec2 ℚ) := [⟨1, 0⟩, ⟨2, 0⟩, ⟨3, 1⟩, ⟨3, 2⟩, ⟨2, 3⟩, ⟨1, 3⟩, ⟨0, 2⟩, ⟨0, 1⟩]

/-- Declared convex, it answers within nine steps (`3 + 2 log2 9`). -/
example : ∃ s0 : Polygon ℚ, Polygon.new octagon (some true) none = .ok s0 ∧
    (s0.containsPointC 0 (.vec ⟨1, 1⟩)).steps ≤ 9 := by
  obtain ⟨s0, h⟩ : ∃ s0, Polygon.new octagon (some true) none = .ok s0 := by
    unfold Polygon.new
    rw [if_neg (by decide)]
    exact ⟨_, rfl⟩
  refine ⟨s0, h, ?_⟩
  have := C86_contains_declared 0 octagon (by decide) s0 h [] (by simp) (.vec ⟨1, 1⟩)
  have h2 : Nat.log2 (octagon.length + 1) = 3 := by decide
  rw [h2] at this
  exact this

/-- Its deep copy takes seventeen the first time (with the bounding box) and nine every time after that. -/
example : ((Polygon.new octagon (some true) none).toOption.map fun s =>
      ((s.deepcopy.containsPointC 0 (.vec ⟨1, 1⟩)).steps,
        ((s.deepcopy.after 0 [.isConvex, .contains (.vec ⟨1, 1⟩)]).containsPointC 0 (.vec ⟨1, 1⟩)).steps)) = some (17, 9) := by
  decide +kernel

/-- A fresh octagon goes through its vertices; once `is_convex` has been read it is known to be convex. -/
example : ((Polygon.new octagon).toOption.map fun s =>
      ((s.containsPointC 0 (.vec ⟨1, 1⟩)).steps, (s.after 0 [.isConvex]).isConvexKnown, (s.after 0 [.isConvex]).isConvex.1)) =
    some (17, true, true) := by
  decide +kernel

/-- Flat polygons stay slow: five points of one oblique line are convex, and every query goes through all of them. -/
example : ((Polygon.new (K := ℚ) [⟨0, 0⟩, ⟨1, 1⟩, ⟨2, 2⟩, ⟨3, 3⟩, ⟨4, 4⟩]).toOption.map fun s =>
      let t := s.after 0 [.isConvex, .contains (.vec ⟨1, 2⟩)]
      (t.isConvexKnown, t.isConvex.1, (t.containsPointC 0 (.vec ⟨1, 2⟩)).steps)) = some (true, true, 6) := by
  decide +kernel

end Examples
end Planar
