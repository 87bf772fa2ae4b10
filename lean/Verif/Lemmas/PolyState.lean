import Verif.Model.History
import Verif.Lemmas.Rounded
import Verif.Lemmas.Poly
import Verif.Props.Affine
/- The invariant of the attributes of a polygon object built without declared flags. -/
set_option linter.unusedSectionVars false
namespace Planar
open Spec
namespace Polygon
variable {K : Type} [LinearOrder K] [Add K] [Sub K] [Mul K] [Div K] [Neg K] [Zero K] [One K] [RoundedArith K]

/-- What `_classify` stores in `_convex`. -/
def cv (vs : List (Vec2 K)) : Bool :=
  if (classifyRun vs).dirChanges ≤ 2 then (classifyRun vs).convex else false

/-- What `_classify` stores in `_degenerate`. -/
def dg (vs : List (Vec2 K)) : Bool := (classifyRun vs).count == 0 || (classifyRun vs).angleSign == 0

/-- What `_classify` stores in `_dupe_verts`. -/
def dv (vs : List (Vec2 K)) : Bool := decide ((classifyRun vs).count < vs.length)

theorem classify_eq (s : Polygon K) : s.classify =
    { s with
      convex := some (cv s.verts)
      simple := if cv s.verts then some true else none
      degenerate := some (dg s.verts)
      dupeVerts := if cv s.verts && !dg s.verts then some (dv s.verts) else s.dupeVerts
      yPolylines := if cv s.verts && !dg s.verts then some (splitYPolylines s.verts) else s.yPolylines } := by
  unfold classify
  simp only
  change (if (cv s.verts && !dg s.verts) = true then _ else _) = _
  by_cases h : (cv s.verts && !dg s.verts) = true
  · simp only [h, if_true]; rfl
  · simp only [h, if_false]; rfl

/-- The value of `is_convex` on a polygon without declared flags. -/
def convexVal (vs : List (Vec2 K)) : Bool := if 3 < vs.length then cv vs else true

/-- The value of `is_simple` on a polygon without declared flags. -/
def simpleVal (vs : List (Vec2 K)) : Bool := if 3 < vs.length then cv vs || checkSimple vs else true

/-- The value of `centroid` on a polygon without declared flags. -/
def centroidVal (vs : List (Vec2 K)) : Py (Option (Vec2 K)) :=
  if simpleVal vs then (computeCentroid vs).map some else .ok none

/-- Nothing has been classified yet. -/
structure Unclassified (s : Polygon K) : Prop where
  convex : s.convex = none
  simple : s.simple = none
  ypl : s.yPolylines = none
  dupe : s.dupeVerts = none
  centroid : s.centroid = none

/-- `_classify` has run on the current vertices. -/
structure Classified (s : Polygon K) : Prop where
  convex : s.convex = some (cv s.verts)
  simple : ∀ b, s.simple = some b → b = (cv s.verts || checkSimple s.verts)
  simpleT : cv s.verts = true → s.simple = some true
  ypl : s.yPolylines = if cv s.verts && !dg s.verts then some (splitYPolylines s.verts) else none
  dupe : s.dupeVerts = if cv s.verts && !dg s.verts then some (dv s.verts) else none

/-- The invariant. -/
structure Inv (eps : K) (s : Polygon K) : Prop where
  short : s.verts.length ≤ 3 → s.convex = some true ∧ s.simple = some true ∧ s.yPolylines = none ∧ s.dupeVerts = none
  long : 3 < s.verts.length → Unclassified s ∨ Classified s
  centroid : ∀ c, s.centroid = some c → centroidVal s.verts = .ok c
  bbox : ∀ b, s.bbox = some b → Box.fromPoints s.verts = .ok b
  tri : ∀ c, s.triTest = some c → s.verts.length = 3 ∧ triangleClosure eps s.verts = .ok (some c)
  minR2 : s.minR2 = none
  maxR2 : s.maxR2 = none

theorem inv_cleared (eps : K) (vs : List (Vec2 K)) (t : Option (TriClosure K)) (ht : 3 < vs.length → t = none) :
    Inv eps (cleared vs t) := by
  constructor
  · intro h
    have : ¬ vs.length > 3 := by simpa [cleared] using h
    simp [cleared, this]
  · intro h
    have : vs.length > 3 := h
    left
    constructor <;> simp [cleared, this]
  · intro c h; simp [cleared] at h
  · intro c h; simp [cleared] at h
  · intro c h
    exfalso
    by_cases h3 : vs.length > 3
    · simp [cleared, h3, ht h3] at h
    · simp [cleared, h3] at h
  · rfl
  · rfl

theorem inv_fromPoints (eps : K) (vs : List (Vec2 K)) : Inv eps (fromPoints vs) :=
  inv_cleared eps vs none fun _ => rfl

variable {eps : K} {s : Polygon K}

theorem Inv.tri_long (h : Inv eps s) (h3 : 3 < s.verts.length) : s.triTest = none := by
  cases ht : s.triTest with
  | none => rfl
  | some c => have := (h.tri c ht).1; omega

/-- `_classify` on a polygon nothing is known of. -/
theorem inv_classify (h : Inv eps s) (h3 : 3 < s.verts.length) (hu : Unclassified s) :
    Inv eps s.classify ∧ s.classify.verts = s.verts ∧ Classified s.classify ∧ s.classify.centroid = none ∧
      s.classify.simple = (if cv s.verts then some true else none) := by
  rw [classify_eq]
  have hc : Classified { s with
      convex := some (cv s.verts)
      simple := if cv s.verts then some true else none
      degenerate := some (dg s.verts)
      dupeVerts := if cv s.verts && !dg s.verts then some (dv s.verts) else s.dupeVerts
      yPolylines := if cv s.verts && !dg s.verts then some (splitYPolylines s.verts) else s.yPolylines } := by
    constructor
    · rfl
    · intro b hb
      simp only at hb
      by_cases hcv : cv s.verts = true
      · simp [hcv] at hb; simp [hcv, hb.symm]
      · simp [hcv] at hb
    · intro hcv
      simp only at hcv
      simp [hcv]
    · simp only [hu.ypl]
    · simp only [hu.dupe]
  refine ⟨?_, rfl, hc, hu.centroid, rfl⟩
  constructor
  · intro h'; simp only at h'; omega
  · intro _; exact Or.inr hc
  · exact h.centroid
  · exact h.bbox
  · exact h.tri
  · exact h.minR2
  · exact h.maxR2

theorem isConvex_known {b : Bool} (h : s.convex = some b) : s.isConvex = (b, s) := by
  unfold isConvex; rw [h]

theorem isConvex_unknown (h : s.convex = none) : s.isConvex = (s.classify.convex.getD false, s.classify) := by
  unfold isConvex; rw [h]

theorem isSimple_known {b : Bool} (h : s.simple = some b) : s.isSimple = (b, s) := by
  unfold isSimple; rw [h]

theorem isSimple_check {b : Bool} (h : s.simple = none) (hc : s.convex = some b) :
    s.isSimple = (checkSimple s.verts, { s with simple := some (checkSimple s.verts) }) := by
  cases s
  simp only at h hc
  subst h hc
  rfl

theorem isSimple_unknown (h : s.simple = none) (hc : s.convex = none) : s.isSimple = s.classify.isSimple := by
  have hc' : s.classify.convex = some (cv s.verts) := by rw [classify_eq]
  conv_lhs => unfold isSimple
  rw [h]
  simp only [hc]
  cases hb : s.classify.simple with
  | some b => rw [isSimple_known hb]
  | none => rw [isSimple_check hb hc']

/-- `is_convex`. -/
theorem inv_isConvex (h : Inv eps s) :
    s.isConvex.1 = convexVal s.verts ∧ Inv eps s.isConvex.2 ∧ s.isConvex.2.verts = s.verts ∧
      s.isConvex.2.convex = some (convexVal s.verts) ∧
      (3 < s.verts.length → Classified s.isConvex.2) ∧
      s.isConvex.2.dupeVerts = (if 3 < s.verts.length && cv s.verts && !dg s.verts then some (dv s.verts) else none) := by
  by_cases h3 : 3 < s.verts.length
  · rcases h.long h3 with hu | hc
    · obtain ⟨i1, i2, i3, i4, i5⟩ := inv_classify h h3 hu
      rw [isConvex_unknown hu.convex]
      have e : s.classify.convex = some (cv s.verts) := by rw [classify_eq]
      have e' := i3.dupe
      rw [i2] at e'
      refine ⟨by simp [e, convexVal, h3], i1, i2, by simp [e, convexVal, h3], fun _ => i3, ?_⟩
      rw [e']; simp [h3]
    · rw [isConvex_known hc.convex]
      refine ⟨by simp [convexVal, h3], h, rfl, by simp [hc.convex, convexVal, h3], fun _ => hc, ?_⟩
      rw [hc.dupe]; simp [h3]
  · have hs := h.short (by omega)
    rw [isConvex_known hs.1]
    refine ⟨by simp [convexVal, h3], h, rfl, by simp [hs.1, convexVal, h3], fun h' => absurd h' h3, ?_⟩
    simp [hs.2.2.2, h3]

/-- `is_simple`. -/
theorem inv_isSimple (h : Inv eps s) :
    s.isSimple.1 = simpleVal s.verts ∧ Inv eps s.isSimple.2 ∧ s.isSimple.2.verts = s.verts ∧
      s.isSimple.2.centroid = s.centroid ∧ (3 < s.verts.length → Classified s.isSimple.2) := by
  have fin : ∀ s' : Polygon K, Inv eps s' → 3 < s'.verts.length → Classified s' → s'.simple = none →
      let r : Bool × Polygon K := (checkSimple s'.verts, { s' with simple := some (checkSimple s'.verts) })
      r.1 = simpleVal s'.verts ∧ Inv eps r.2 ∧ r.2.verts = s'.verts ∧ r.2.centroid = s'.centroid ∧
        (3 < s'.verts.length → Classified r.2) := by
    intro s' h' h3' hc' hn
    have hcv : cv s'.verts = false := by
      cases hb : cv s'.verts with
      | false => rfl
      | true => have := hc'.simpleT hb; rw [hn] at this; simp at this
    have hC : Classified { s' with simple := some (checkSimple s'.verts) } := by
      constructor
      · exact hc'.convex
      · intro b hb; simp only [Option.some.injEq] at hb; simp [hcv, hb.symm]
      · intro hb; simp only at hb; rw [hcv] at hb; simp at hb
      · exact hc'.ypl
      · exact hc'.dupe
    refine ⟨by simp [simpleVal, h3', hcv], ?_, rfl, rfl, fun _ => hC⟩
    constructor
    · intro h''; simp only at h''; omega
    · intro _; exact Or.inr hC
    · exact h'.centroid
    · exact h'.bbox
    · exact h'.tri
    · exact h'.minR2
    · exact h'.maxR2
  by_cases h3 : 3 < s.verts.length
  · rcases h.long h3 with hu | hc
    · obtain ⟨i1, i2, i3, i4, i5⟩ := inv_classify h h3 hu
      rw [isSimple_unknown hu.simple hu.convex]
      by_cases hcv : cv s.verts = true
      · rw [hcv] at i5
        simp only [if_true] at i5
        rw [isSimple_known i5]
        exact ⟨by simp [simpleVal, h3, hcv], i1, i2, by rw [i4, hu.centroid], fun _ => i3⟩
      · have hcv' : cv s.verts = false := by simpa using hcv
        rw [hcv'] at i5
        simp only [Bool.false_eq_true, if_false] at i5
        rw [isSimple_check i5 i3.convex]
        have := fin s.classify i1 (by rw [i2]; exact h3) i3 i5
        simp only [i2] at this ⊢
        obtain ⟨f1, f2, f3, f4, f5⟩ := this
        exact ⟨f1, f2, trivial, by rw [i4, hu.centroid], f5⟩
    · cases hsm : s.simple with
      | some b =>
        rw [isSimple_known hsm]
        exact ⟨by simp [simpleVal, h3, hc.simple b hsm], h, rfl, rfl, fun _ => hc⟩
      | none =>
        rw [isSimple_check hsm hc.convex]
        exact fin s h h3 hc hsm
  · have hs := h.short (by omega)
    rw [isSimple_known hs.2.1]
    exact ⟨by simp [simpleVal, h3], h, rfl, rfl, fun h' => absurd h' h3⟩

/-- `bounding_box`. -/
theorem inv_boundingBox (h : Inv eps s) :
    s.boundingBox.1 = Box.fromPoints s.verts ∧ Inv eps s.boundingBox.2 ∧ s.boundingBox.2.verts = s.verts := by
  unfold boundingBox
  cases hb : s.bbox with
  | some b => exact ⟨(h.bbox b hb).symm, h, rfl⟩
  | none =>
    simp only
    cases hf : Box.fromPoints s.verts with
    | error e => exact ⟨rfl, h, rfl⟩
    | ok b =>
      refine ⟨rfl, ?_, rfl⟩
      constructor
      · exact h.short
      · intro h3
        rcases h.long h3 with hu | hc
        · exact Or.inl ⟨hu.convex, hu.simple, hu.ypl, hu.dupe, hu.centroid⟩
        · exact Or.inr ⟨hc.convex, hc.simple, hc.simpleT, hc.ypl, hc.dupe⟩
      · exact h.centroid
      · intro b' hb'
        simp only [Option.some.injEq] at hb'
        subst hb'
        simpa using hf
      · exact h.tri
      · exact h.minR2
      · exact h.maxR2

/-- `centroid`. -/
theorem inv_getCentroid (h : Inv eps s) :
    s.getCentroid.1 = centroidVal s.verts ∧ Inv eps s.getCentroid.2 ∧ s.getCentroid.2.verts = s.verts := by
  unfold getCentroid
  cases hc : s.centroid with
  | some c => exact ⟨(h.centroid c hc).symm, h, rfl⟩
  | none =>
    simp only
    obtain ⟨i1, i2, i3, i4, i5⟩ := inv_isSimple h
    have fin : ∀ c, centroidVal s.verts = .ok c → Inv eps { s.isSimple.2 with centroid := some c } := by
      intro c hv
      constructor
      · exact i2.short
      · intro h3
        simp only at h3
        have hcl := i5 (by rw [← i3]; exact h3)
        exact Or.inr ⟨hcl.convex, hcl.simple, hcl.simpleT, hcl.ypl, hcl.dupe⟩
      · intro c' hc'
        simp only [Option.some.injEq] at hc'
        subst hc'
        simp only [i3]; exact hv
      · exact i2.bbox
      · exact i2.tri
      · exact i2.minR2
      · exact i2.maxR2
    rw [i1]
    by_cases hsv : simpleVal s.verts = true
    · simp only [hsv, if_true, i3]
      cases hcc : computeCentroid s.verts with
      | error e => exact ⟨by simp [centroidVal, hsv, hcc, Except.map], i2, i3⟩
      | ok c =>
        have hv : centroidVal s.verts = .ok (some c) := by simp [centroidVal, hsv, hcc, Except.map]
        have f := fin _ hv
        simp only [i3] at f
        exact ⟨hv.symm, f, rfl⟩
    · have hsv' : simpleVal s.verts = false := by simpa using hsv
      have hv : centroidVal s.verts = .ok none := by simp [centroidVal, hsv']
      simp only [hsv', Bool.false_eq_true, if_false]
      exact ⟨hv.symm, fin _ hv, i3⟩

/-- `_pnp_triangle_test`. -/
theorem inv_pnpTriangle (h : Inv eps s) (h3 : s.verts.length = 3) (p : PyPoint K) :
    Inv eps (s.pnpTriangle eps p).2 ∧ (s.pnpTriangle eps p).2.verts = s.verts ∧
    (s.pnpTriangle eps p).1 = ((fromPoints s.verts).pnpTriangle eps p).1 := by
  have hf : (fromPoints s.verts).triTest = none := by simp [fromPoints, cleared]
  have hfv : (fromPoints s.verts).verts = s.verts := rfl
  unfold pnpTriangle
  rw [hf, hfv]
  cases ht : s.triTest with
  | some c =>
    rw [(h.tri c ht).2]
    exact ⟨h, rfl, rfl⟩
  | none =>
    simp only
    cases hc : triangleClosure eps s.verts with
    | error e => exact ⟨h, rfl, rfl⟩
    | ok o =>
      cases o with
      | none => exact ⟨h, rfl, rfl⟩
      | some c =>
        refine ⟨?_, rfl, rfl⟩
        constructor
        · exact h.short
        · intro h'; simp only at h'; omega
        · exact h.centroid
        · exact h.bbox
        · intro c' hc'
          simp only [Option.some.injEq] at hc'
          subst hc'
          exact ⟨h3, hc⟩
        · exact h.minR2
        · exact h.maxR2

/-- `contains_point` keeps the invariant and the vertices. -/
theorem inv_containsPoint (h : Inv eps s) (p : PyPoint K) :
    Inv eps (s.containsPoint eps p).2 ∧ (s.containsPoint eps p).2.verts = s.verts := by
  unfold containsPoint
  by_cases h3 : s.verts.length = 3
  · simp only [h3, if_true]
    exact ⟨(inv_pnpTriangle h h3 p).1, (inv_pnpTriangle h h3 p).2.1⟩
  · simp only [h3, if_false]
    split
    · exact ⟨h, rfl⟩
    · exact ⟨h, rfl⟩
    · split
      · exact ⟨h, rfl⟩
      · split
        · exact ⟨h, rfl⟩
        · obtain ⟨b1, b2, b3⟩ := inv_boundingBox h
          split
          · rename_i heq
            rw [heq] at b2 b3
            exact ⟨b2, b3⟩
          · rename_i heq
            rw [heq] at b2 b3
            split
            · exact ⟨b2, b3⟩
            · exact ⟨b2, b3⟩

theorem inv_tangents (h : Inv eps s) (p : Vec2 K) :
    Inv eps (s.tangentsToPoint p).2 ∧ (s.tangentsToPoint p).2.verts = s.verts ∧
    (s.tangentsToPoint p).1 = ((fromPoints s.verts).tangentsToPoint p).1 := by
  have hf := inv_isConvex (inv_fromPoints eps s.verts)
  have hs := inv_isConvex h
  have hfv : (fromPoints s.verts).verts = s.verts := rfl
  rw [hfv] at hf
  unfold tangentsToPoint
  rw [hfv]
  by_cases h20 : s.verts.length > 20
  · simp only [h20, if_true, hs.1, hf.1, hs.2.2.2.2.2, hf.2.2.2.2.2, hs.2.2.1, hf.2.2.1]
    refine ⟨?_, ?_, ?_⟩
    · split
      · split <;> exact hs.2.1
      · split <;> exact hs.2.1
    · split
      · split <;> exact hs.2.2.1
      · split <;> exact hs.2.2.1
    · split
      · split <;> rfl
      · split <;> rfl
  · simp only [h20, if_false]
    exact ⟨h, trivial, trivial⟩

theorem inv_clearCached (h : Inv eps s) (vs : List (Vec2 K)) (hl : vs.length = s.verts.length) :
    Inv eps ({ s with verts := vs } : Polygon K).clearCached := by
  apply inv_cleared
  intro h3
  exact h.tri_long (by simp only at h3; omega)

theorem inv_setItem (h : Inv eps s) (i : Int) (v : Vec2 K) :
    Inv eps (s.setItem i v).2 ∧ (s.setItem i v).2.verts.length = s.verts.length := by
  unfold setItem pySet
  cases pyIndex s.verts.length i with
  | none => exact ⟨h, rfl⟩
  | some k =>
    exact ⟨inv_clearCached h _ (by simp), by simp [clearCached, cleared]⟩

theorem itransformFrom_eq (T : Affine K) : ∀ (n : Nat) (s : Polygon K) (i : Nat),
    s.verts.length - i = n → i ≤ s.verts.length →
    (itransformFrom T s i).verts = s.verts.take i ++ (s.verts.drop i).map T.apply ∧
    (itransformFrom T s i = s ∨ ∃ t : Polygon K, itransformFrom T s i = cleared t.verts (if 3 < s.verts.length then s.triTest else none)) := by
  intro n
  induction n with
  | zero =>
    intro s i hn hi
    have : i = s.verts.length := by omega
    subst this
    unfold itransformFrom; simp
  | succ n ih =>
    intro s i hn hi
    have hlt : i < s.verts.length := by omega
    rw [itransformFrom, dif_pos hlt]
    have hlen : ((({ s with verts := s.verts.set i (T.apply s.verts[i]) } : Polygon K)).clearCached).verts.length = s.verts.length := by
      simp [clearCached, cleared]
    have hv : ((({ s with verts := s.verts.set i (T.apply s.verts[i]) } : Polygon K)).clearCached).verts =
      s.verts.set i (T.apply s.verts[i]) := rfl
    have e := ih ((({ s with verts := s.verts.set i (T.apply s.verts[i]) } : Polygon K)).clearCached) (i + 1)
      (by rw [hlen]; omega) (by rw [hlen]; omega)
    rw [hv] at e
    have hcopy : (Vec2.mk' (s.verts[i].x * T.a + s.verts[i].y * T.d + T.c) (s.verts[i].x * T.b + s.verts[i].y * T.e + T.f)).copy
        = T.apply s.verts[i] := by rw [Vec2.copy_fl]; rfl
    simp only [hcopy]
    refine ⟨?_, ?_⟩
    · rw [e.1]
      rw [List.drop_set_of_lt (by omega), List.drop_eq_getElem_cons hlt, List.take_add_one,
        List.take_set_of_le (by omega), List.getElem?_set_self hlt]
      simp only [Option.toList_some, List.append_assoc, List.singleton_append, List.map_cons]
    · right
      rcases e.2 with e2 | ⟨t, e2⟩
      · refine ⟨{ s with verts := s.verts.set i (T.apply s.verts[i]) }, ?_⟩
        rw [e2]
        by_cases h3 : 3 < s.verts.length <;> simp [clearCached, cleared, h3]
      · refine ⟨t, ?_⟩
        rw [e2]
        by_cases h3 : 3 < s.verts.length <;> simp [clearCached, cleared, h3]

theorem map_apply_identity (vs : List (Vec2 K)) : vs.map (Affine.identity : Affine K).apply = vs := by
  conv_rhs => rw [← List.map_id vs]
  apply List.map_congr_left
  intro v _
  exact Affine.identity_fl v

/-- `poly *= T` leaves the transformed vertices, at the same indices. -/
theorem imul_verts (s : Polygon K) (T : Affine K) : (s.imul T).verts = s.verts.map T.apply := by
  unfold imul
  by_cases hT : T = Affine.identity
  · subst hT
    simp only [map_apply_identity]
    simp [clearCached, cleared]
  · have : (T != Affine.identity) = true := by simpa using hT
    simp only [this, if_true]
    change (itransformFrom T s 0).verts = _
    rw [(itransformFrom_eq T _ s 0 rfl (by omega)).1]; simp

theorem imul_triTest (s : Polygon K) (T : Affine K) (h : 3 < s.verts.length) : (s.imul T).triTest = s.triTest := by
  unfold imul
  by_cases hT : (T != Affine.identity) = true
  · simp only [hT, if_true]
    have hl : (itransformFrom T s 0).verts.length = s.verts.length := by
      rw [(itransformFrom_eq T _ s 0 rfl (by omega)).1]; simp
    simp only [clearCached, cleared, hl, h, decide_true, if_true]
    rcases (itransformFrom_eq T _ s 0 rfl (by omega)).2 with e | ⟨t, e⟩
    · rw [e]
    · rw [e] at hl ⊢
      have hl' : t.verts.length = s.verts.length := hl
      simp [cleared, h, hl']
  · simp only [hT, if_false, clearCached, cleared, h, decide_true, if_true]
    simp only [Bool.false_eq_true, if_false, gt_iff_lt, decide_eq_true_eq, if_pos h]

theorem imul_eq_cleared (s : Polygon K) (T : Affine K) :
    s.imul T = cleared (s.verts.map T.apply) (if 3 < s.verts.length then s.triTest else none) := by
  have h1 := imul_verts s T
  have h2 := imul_triTest s T
  have : ∃ t, s.imul T = cleared (s.imul T).verts t := by
    unfold imul
    exact ⟨_, rfl⟩
  obtain ⟨t, ht⟩ := this
  rw [h1] at ht
  by_cases h3 : 3 < s.verts.length
  · have e := h2 h3
    rw [ht] at e ⊢
    simp only [cleared, List.length_map, h3, decide_true, if_true] at e ⊢
    simp [e]
  · rw [ht]; simp [cleared, h3]

theorem inv_imul (h : Inv eps s) (T : Affine K) : Inv eps (s.imul T) := by
  rw [imul_eq_cleared]
  apply inv_cleared
  intro h3
  have h3 : 3 < s.verts.length := by simpa using h3
  simp only [h3, if_true]
  exact h.tri_long h3

/-- Every operation keeps the invariant and the number of vertices; reads keep the vertices. -/
theorem inv_run (h : Inv eps s) (op : PolyOp K) :
    Inv eps (op.run eps s) ∧ (op.run eps s).verts.length = s.verts.length ∧
    (op.isRead = true → (op.run eps s).verts = s.verts) := by
  cases op with
  | setItem i v => exact ⟨(inv_setItem h i v).1, (inv_setItem h i v).2, fun h => by simp [PolyOp.isRead] at h⟩
  | imul T => exact ⟨inv_imul h T, by simp [PolyOp.run, imul_verts], fun h => by simp [PolyOp.isRead] at h⟩
  | isConvex => have := inv_isConvex h; exact ⟨this.2.1, congrArg _ this.2.2.1, fun _ => this.2.2.1⟩
  | isSimple => have := inv_isSimple h; exact ⟨this.2.1, congrArg _ this.2.2.1, fun _ => this.2.2.1⟩
  | centroid => have := inv_getCentroid h; exact ⟨this.2.1, congrArg _ this.2.2, fun _ => this.2.2⟩
  | boundingBox => have := inv_boundingBox h; exact ⟨this.2.1, congrArg _ this.2.2, fun _ => this.2.2⟩
  | contains p => have := inv_containsPoint h p; exact ⟨this.1, congrArg _ this.2, fun _ => this.2⟩
  | tangents p => have := inv_tangents h p; exact ⟨this.1, congrArg _ this.2.1, fun _ => this.2.1⟩

theorem inv_after (h : Inv eps s) (ops : List (PolyOp K)) :
    Inv eps (s.after eps ops) ∧ (s.after eps ops).verts.length = s.verts.length ∧
    ((∀ op ∈ ops, op.isRead = true) → (s.after eps ops).verts = s.verts) := by
  induction ops generalizing s with
  | nil => exact ⟨h, rfl, fun _ => rfl⟩
  | cons op ops ih =>
    have h1 := inv_run h op
    have h2 := ih h1.1
    refine ⟨h2.1, h2.2.1.trans h1.2.1, fun hr => ?_⟩
    exact (h2.2.2 fun o ho => hr o (List.mem_cons_of_mem _ ho)).trans (h1.2.2 (hr op List.mem_cons_self))

end Polygon
end Planar
