import Verif.Lemmas.RectSim
import Verif.Lemmas.FloatError
import Verif.Spec.Clear
/- Where the orientation tests that matter have the exact sign, the floating point run of a polygon object answers as the
exact run. -/
set_option linter.unusedSectionVars false
namespace Planar
open Spec Polygon

variable {F : Type} [Field F] [LinearOrder F] [IsStrictOrderedRing F] {R : Rounding F}

/-- The orientation of `p` about the line from `v0` to `v1` is computed with the exact sign. -/
def TurnOk (p v0 v1 : Vec2 (Fl R)) : Prop :=
  SameSign ((v1.x - v0.x) * (p.y - v0.y) - (p.x - v0.x) * (v1.y - v0.y))
    ((v1.exact.x - v0.exact.x) * (p.exact.y - v0.exact.y) - (p.exact.x - v0.exact.x) * (v1.exact.y - v0.exact.y))

/-- If the edge is at the height of `p`, both its orientation tests are right. -/
def EdgeOk (p v0 v1 : Vec2 (Fl R)) : Prop :=
  (v0.y.val < p.y.val ∧ p.y.val ≤ v1.y.val) ∨ (v1.y.val < p.y.val ∧ p.y.val ≤ v0.y.val) →
    TurnOk p v0 v1 ∧ TurnOk p v1 v0

theorem EdgeOk.symm {p v0 v1 : Vec2 (Fl R)} (h : EdgeOk p v0 v1) : EdgeOk p v1 v0 := fun hs => (h hs.symm).symm

/-! ### The winding test -/

theorem ok_windStep {p v0 v1 : Vec2 (Fl R)} (h : EdgeOk p v0 v1) :
    Polygon.windStep p v0 v1 = Polygon.windStep p.exact v0.exact v1.exact := by
  by_cases hs : (v0.y.val < p.y.val ∧ p.y.val ≤ v1.y.val) ∨ (v1.y.val < p.y.val ∧ p.y.val ≤ v0.y.val)
  · have e := (h hs).1
    unfold TurnOk at e
    unfold Polygon.windStep
    simp only [ge_iff_le, val_le, val_zero, e.nonneg, e.nonpos, exact_y, exact_x]
    rfl
  · have hb : (decide (v0.y.val ≥ p.y.val) != decide (v1.y.val ≥ p.y.val)) = false := by
      rw [not_or, not_and, not_and, not_le, not_le] at hs
      by_cases h0 : p.y.val ≤ v0.y.val <;> by_cases h1 : p.y.val ≤ v1.y.val <;> simp only [ge_iff_le, h0, h1] <;>
        first | rfl | (exfalso; first | exact absurd (hs.1 (not_le.mp h0)) (not_lt.mpr h1) | exact absurd (hs.2 (not_le.mp h1)) (not_lt.mpr h0))
    unfold Polygon.windStep
    simp only [ge_iff_le, val_le, exact_y, exact_x] at hb ⊢
    rw [hb]
    simp

theorem ok_windLoop (p : Vec2 (Fl R)) : ∀ (vs : List (Vec2 (Fl R))) (v0 : Vec2 (Fl R)) (w : Int),
    (∀ e ∈ edgesFrom v0 vs, EdgeOk p e.1 e.2) →
    Polygon.windLoop p vs v0 w = Polygon.windLoop p.exact (vs.map Vec2.exact) v0.exact w := by
  intro vs
  induction vs with
  | nil => intro v0 w _; rfl
  | cons v vs ih =>
    intro v0 w h
    simp only [Polygon.windLoop, List.map_cons]
    rw [ih _ _ fun e he => h e (List.mem_cons_of_mem _ he), ok_windStep (h (v0, v) List.mem_cons_self)]

theorem ok_pnpWinding {p : Vec2 (Fl R)} {vs : List (Vec2 (Fl R))} (h : ∀ e ∈ edges vs, EdgeOk p e.1 e.2) :
    Polygon.pnpWinding vs p = Polygon.pnpWinding (vs.map Vec2.exact) p.exact := by
  by_cases hne : vs = []
  · subst hne; rfl
  unfold Polygon.pnpWinding
  rw [ok_windLoop p vs, nth_exact]
  rw [nth_neg_one vs hne, ← edges_ne_nil hne]; exact h

/-! ### The polyline test -/

/-- A symmetric relation between the ends of all edges holds between neighbours in the polylines. -/
theorem split_chain {r : Vec2 (Fl R) → Vec2 (Fl R) → Prop} (hs : ∀ a b, r a b → r b a) {vs : List (Vec2 (Fl R))}
    (h : ∀ e ∈ edges vs, r e.1 e.2) :
    (splitYPolylines vs).1.IsChain (fun a b => r ⟨a.2, a.1⟩ ⟨b.2, b.1⟩) ∧
    (splitYPolylines vs).2.IsChain (fun a b => r ⟨a.2, a.1⟩ ⟨b.2, b.1⟩) := by
  obtain ⟨c1, c2⟩ := edges_chain h
  set q : Fl R × Fl R → Fl R × Fl R → Prop := fun a b => r ⟨a.2, a.1⟩ ⟨b.2, b.1⟩ with hq
  have up : ∀ {pl : List (Fl R × Fl R)}, pl.IsChain q → (upward pl).IsChain q := by
    intro pl h
    unfold upward
    split
    · split
      · rw [List.isChain_reverse]
        exact h.imp fun a b hab => hs _ _ hab
      · exact h
    · exact h
  set l := vs.map fun v => (v.y, v.x) with hl
  have hc : l.IsChain q := by
    rw [hl, List.isChain_map]
    exact c1.imp fun a b hab => hab
  have seg : ∀ i j : Nat, (upward ((l.take i).drop j)).IsChain q := fun i j => up ((hc.take i).drop j)
  have wrap : ∀ i j : Nat, (upward (l.drop i ++ l.take j)).IsChain q := by
    intro i j
    refine up (List.isChain_append.mpr ⟨hc.drop i, hc.take j, ?_⟩)
    intro a ha b hb
    have ha' : a ∈ l.getLast? := by
      rw [List.getLast?_drop] at ha
      split at ha
      · simp at ha
      · exact ha
    have hb' : b ∈ l.head? := by
      rw [List.head?_take] at hb
      split at hb
      · simp at hb
      · exact hb
    rw [hl, List.getLast?_map, Option.mem_map] at ha'
    rw [hl, List.head?_map, Option.mem_map] at hb'
    obtain ⟨a, ha', rfl⟩ := ha'
    obtain ⟨b, hb', rfl⟩ := hb'
    exact c2 a ha' b hb'
  unfold splitYPolylines
  simp only [← hl]
  split_ifs <;> exact ⟨by first | exact seg _ _ | exact wrap _ _, by first | exact seg _ _ | exact wrap _ _⟩

theorem pyGet_chain {q : Fl R × Fl R → Fl R × Fl R → Prop} {pl : List (Fl R × Fl R)} (hc : pl.IsChain q) {py : Fl R}
    (h0 : bisectRight pl py ≠ 0) (h1 : bisectRight pl py < pl.length) :
    ∃ a b, pyGet pl ((bisectRight pl py : Nat) - 1 : Int) = .ok a ∧ pyGet pl (bisectRight pl py : Int) = .ok b ∧ q a b ∧
      a.1.val < py.val ∧ py.val ≤ b.1.val := by
  have hb := bisect_spec (pl.map exactPair) py.val
  rw [bisectRight_exact] at hb
  obtain ⟨-, hb1, hb2⟩ := hb
  generalize bisectRight pl py = i at h0 h1 hb1 hb2
  obtain ⟨k, rfl⟩ := Nat.exists_eq_succ_of_ne_zero h0
  have hk : ((k.succ : Nat) : Int) - 1 = (k : Int) := by push_cast; ring
  refine ⟨pl[k], pl[k + 1], ?_, ?_, List.isChain_iff_getElem.mp hc k h1, ?_, ?_⟩
  · rw [hk]
    have : pyIndex pl.length (k : Int) = some k := by simp [pyIndex]; omega
    simp only [pyGet, this, List.getElem?_eq_getElem (show k < pl.length by omega)]
  · have : pyIndex pl.length ((k.succ : Nat) : Int) = some (k + 1) := by
      unfold pyIndex
      rw [if_pos (by omega), if_pos (by omega)]; simp
    simp only [pyGet, this, List.getElem?_eq_getElem h1]
  · exact hb1 k (exactPair pl[k]) rfl (by rw [List.getElem?_map, List.getElem?_eq_getElem (by omega)]; rfl)
  · exact hb2 (exactPair pl[k + 1]) (by rw [List.getElem?_map, List.getElem?_eq_getElem h1]; rfl)

theorem ok_pnpYMonotone {p : Vec2 (Fl R)} {vs : List (Vec2 (Fl R))} (h : ∀ e ∈ edges vs, EdgeOk p e.1 e.2) (hne : vs ≠ []) :
    Polygon.pnpYMonotone (splitYPolylines (vs.map Vec2.exact)) p.exact = Polygon.pnpYMonotone (splitYPolylines vs) p := by
  have hin := split_inside (vs := vs.map Vec2.exact) (by simpa using hne) p.exact.y
  rw [splitYPolylines_exact] at hin ⊢
  obtain ⟨c1, c2⟩ := split_chain (r := EdgeOk p) (fun a b hab => EdgeOk.symm hab) h
  generalize splitYPolylines vs = pls at hin c1 c2 ⊢
  simp only [exact_y, bisectRight_exact, List.length_map] at hin
  unfold Polygon.pnpYMonotone
  simp only [exact_y, bisectRight_exact, List.length_map, pyGet_map]
  split
  · rfl
  · rename_i hcond
    simp only [Bool.or_eq_true, decide_eq_true_eq] at hcond
    have hle : bisectRight pls.1 p.y ≤ pls.1.length := by
      have := (bisect_spec (pls.1.map exactPair) p.y.val).1
      rwa [bisectRight_exact, List.length_map] at this
    obtain ⟨a, b, ha, hb, hab, s1, s2⟩ := pyGet_chain c1 (py := p.y) (fun h => hcond (.inl h))
      (lt_of_le_of_ne hle fun h => hcond (.inr h))
    obtain ⟨i1, i2⟩ := hin hcond
    obtain ⟨c, d, hc, hd, hcd, s3, s4⟩ := pyGet_chain c2 i1 i2
    have e1 : SameSign ((b.2 - a.2) * (p.y - a.1) - (p.x - a.2) * (b.1 - a.1))
      ((b.2.val - a.2.val) * (p.y.val - a.1.val) - (p.x.val - a.2.val) * (b.1.val - a.1.val)) := (hab (.inl ⟨s1, s2⟩)).1
    have e2 : SameSign ((d.2 - c.2) * (p.y - c.1) - (p.x - c.2) * (d.1 - c.1))
      ((d.2.val - c.2.val) * (p.y.val - c.1.val) - (p.x.val - c.2.val) * (d.1.val - c.1.val)) := (hcd (.inl ⟨s3, s4⟩)).1
    simp only [ha, hb, hc, hd, Except.map, bind, Except.bind, exactPair, gt_iff_lt, val_lt, val_zero, exact_x, pure,
      Except.pure, e1.pos, e2.pos]

/-! ### Simplicity -/

theorem ok_segmentsIntersect {a b c d : Vec2 (Fl R)} (h1 : TurnOk c a b) (h2 : TurnOk d a b) (h3 : TurnOk a c d)
    (h4 : TurnOk b c d) :
    Polygon.segmentsIntersect a.exact b.exact c.exact d.exact = Polygon.segmentsIntersect a b c d := by
  unfold TurnOk at h1 h2 h3 h4
  unfold Polygon.segmentsIntersect
  simp only [gt_iff_lt, val_lt, val_beq, val_zero, h1.pos, h2.pos, h3.pos, h4.pos, h1.beq, h2.beq, h3.beq, h4.beq]

/-- The entry is an edge of the polygon or its reverse: all vertices have the right orientation about it. -/
def PtOk (vs : List (Vec2 (Fl R))) (p : SweepPt (Fl R)) : Prop :=
  p.start ∈ vs ∧ p.stop ∈ vs ∧ ∀ v ∈ vs, TurnOk v p.start p.stop

theorem nth_mem_vs {vs : List (Vec2 (Fl R))} {i : Nat} (hi : i < vs.length) : nth vs i ∈ vs ∧ nth vs ((i : Int) - 1) ∈ vs := by
  have key : ∀ j k, pyIndex vs.length j = some k → nth vs j ∈ vs := by
    intro j k hj
    have hk : k < vs.length := by unfold pyIndex at hj; split_ifs at hj <;> cases hj <;> omega
    have : nth vs j = vs[k] := by
      unfold nth pyGet
      rw [hj]; simp only [List.getElem?_eq_getElem hk]
    rw [this]; exact List.getElem_mem hk
  constructor
  · exact key _ i (by simp [pyIndex, hi])
  · rcases Nat.eq_zero_or_pos i with rfl | h0
    · exact key _ (vs.length - 1) (by unfold pyIndex; split_ifs <;> first | omega | (simp only [Option.some.injEq]; omega))
    · exact key _ (i - 1) (by unfold pyIndex; split_ifs <;> first | omega | (simp only [Option.some.injEq]; omega))

theorem ok_sweepPoints {vs : List (Vec2 (Fl R))} (h : ∀ e ∈ edges vs, ∀ v ∈ vs, TurnOk v e.1 e.2 ∧ TurnOk v e.2 e.1) :
    ∀ p ∈ sweepPoints vs, PtOk vs p := by
  intro p hp
  have he : ∀ i, i < vs.length → (nth vs ((i : Int) - 1), nth vs i) ∈ edges vs := by
    intro i hi
    rw [← range_map_edges]
    exact List.mem_map.mpr ⟨i, by simpa using hi, rfl⟩
  unfold sweepPoints pySorted at hp
  simp only at hp
  rw [List.Perm.mem_iff (List.perm_insertionSort _ _), List.mem_append] at hp
  rcases hp with hp | hp <;> obtain ⟨i, hi, rfl⟩ := List.mem_map.mp hp <;> have hi' : i < vs.length := by simpa using hi
  · exact ⟨(nth_mem_vs hi').2, (nth_mem_vs hi').1, fun v hv => (h _ (he i hi') v hv).1⟩
  · exact ⟨(nth_mem_vs hi').1, (nth_mem_vs hi').2, fun v hv => (h _ (he i hi') v hv).2⟩

theorem ok_sweepLoop {vs : List (Vec2 (Fl R))} (n : Nat) : ∀ (ps opens : List (SweepPt (Fl R))),
    (∀ p ∈ ps, PtOk vs p) → (∀ p ∈ opens, PtOk vs p) →
    Polygon.sweepLoop n (ps.map SweepPt.exact) (opens.map SweepPt.exact) = Polygon.sweepLoop n ps opens := by
  intro ps
  induction ps with
  | nil => intro opens _ _; rfl
  | cons p ps ih =>
    intro opens hps ho
    have hp := hps p List.mem_cons_self
    have hps' : ∀ q ∈ ps, PtOk vs q := fun q hq => hps q (List.mem_cons_of_mem _ hq)
    have h1 : (opens.map SweepPt.exact).any (fun o => o.index == p.exact.index) =
        opens.any (fun o => o.index == p.index) := by
      rw [List.any_map]; rfl
    have h2 : (opens.map SweepPt.exact).filter (fun o => o.index != p.exact.index) =
        (opens.filter fun o => o.index != p.index).map SweepPt.exact := by
      rw [List.filter_map]; rfl
    have h3 : meetsOpen n p.exact (opens.map SweepPt.exact) = meetsOpen n p opens := by
      unfold meetsOpen
      rw [List.any_map]
      clear h1 h2 ih hps hps'
      induction opens with
      | nil => rfl
      | cons o os ih =>
        have := ho o List.mem_cons_self
        rw [List.any_cons, List.any_cons, ih fun q hq => ho q (List.mem_cons_of_mem _ hq)]
        congr 1
        change ((_ && _) && Polygon.segmentsIntersect p.start.exact p.stop.exact o.start.exact o.stop.exact) = _
        rw [ok_segmentsIntersect (hp.2.2 _ this.1) (hp.2.2 _ this.2.1) (this.2.2 _ hp.1) (this.2.2 _ hp.2.1)]
        rfl
    simp only [Polygon.sweepLoop, List.map_cons, h1, h2, h3]
    rw [ih _ hps' fun q hq => ho q (List.mem_of_mem_filter hq)]
    have := ih (opens ++ [p]) hps' (by
      intro q hq
      rcases List.mem_append.mp hq with hq | hq
      · exact ho q hq
      · rw [List.mem_singleton.mp hq]; exact hp)
    rw [List.map_append, List.map_singleton] at this
    rw [this]

theorem ok_checkSimple {vs : List (Vec2 (Fl R))} (h : ∀ e ∈ edges vs, ∀ v ∈ vs, TurnOk v e.1 e.2 ∧ TurnOk v e.2 e.1) :
    Polygon.checkSimple (vs.map Vec2.exact) = Polygon.checkSimple vs := by
  unfold Polygon.checkSimple
  rw [sweepPoints_exact, List.length_map]
  exact ok_sweepLoop _ _ [] (ok_sweepPoints h) (by simp)

/-! ### Convexity -/

/-- Both coordinates have the exact sign. -/
def SignVec (d : Vec2 (Fl R)) (e : Vec2 F) : Prop := SameSign d.x e.x ∧ SameSign d.y e.y

theorem SignVec.lexDir {d : Vec2 (Fl R)} {e : Vec2 F} (h : SignVec d e) : Polygon.lexDir e = Polygon.lexDir d := by
  unfold Polygon.lexDir
  simp only [gt_iff_lt, val_lt, val_zero, h.1.pos, h.1.neg, h.2.pos, h.2.neg]

theorem SignVec.truthy {d : Vec2 (Fl R)} {e : Vec2 F} (h : SignVec d e) : e.truthy = d.truthy := by
  unfold Vec2.truthy
  simp only [bne, val_beq, val_zero, h.1.beq, h.2.beq]

theorem signVec_sub (a b : Vec2 (Fl R)) : SignVec (b - a) (b.exact - a.exact) := ⟨sameSign_sub _ _, sameSign_sub _ _⟩

/-- Consecutive vectors have cross products of the right sign. -/
def CrossOk : List (Vec2 (Fl R)) → List (Vec2 F) → Vec2 (Fl R) → Vec2 F → Prop
  | [], [], _, _ => True
  | d :: ds, e :: es, d0, e0 => SignVec d e ∧ SameSign (d0.cross d) (e0.cross e) ∧ CrossOk ds es d e
  | _, _, _, _ => False

theorem ok_classifyLoop : ∀ (ds : List (Vec2 (Fl R))) (es : List (Vec2 F)) (d : Vec2 (Fl R)) (e : Vec2 F) (k : Int)
    (dc : Nat) (sg : Int) (n : Nat), CrossOk ds es d e →
    Polygon.classifyLoop es e k dc sg n = Polygon.classifyLoop ds d k dc sg n := by
  intro ds
  induction ds with
  | nil =>
    intro es d e k dc sg n h
    cases es with
    | nil => rfl
    | cons _ _ => exact h.elim
  | cons d1 ds ih =>
    intro es d e k dc sg n h
    cases es with
    | nil => exact h.elim
    | cons e1 es =>
      obtain ⟨h1, hc, h2⟩ := h
      simp only [Polygon.classifyLoop, h1.lexDir, gt_iff_lt, val_lt, val_zero, hc.pos, hc.neg, ih es _ _ _ _ _ _ h2]

/-! ### The two runs -/

/-- The floating point object `s` and the exact object `t` agree (triangle closure and centroid coordinates apart; the
simple flag too when `b` holds); the vertices are `vs`. -/
structure ASim (b : Prop) (vs : List (Vec2 (Fl R))) (s : Polygon (Fl R)) (t : Polygon F) : Prop where
  verts : t.verts = s.verts.map Vec2.exact
  orig : s.verts = vs
  run : Polygon.classifyRun t.verts = Polygon.classifyRun s.verts
  chk : b → checkSimple t.verts = checkSimple s.verts
  long : 4 ≤ s.verts.length
  convex : t.convex = s.convex
  isSm : t.simple.isSome = s.simple.isSome
  simple : b → t.simple = s.simple
  dupe : t.dupeVerts = s.dupeVerts
  pls : t.yPolylines = s.yPolylines.map exactPls
  plsIs : ∀ pl, s.yPolylines = some pl → pl = splitYPolylines s.verts
  bbox : t.bbox = s.bbox.map Box.exact
  cen : s.centroid = none ∧ t.centroid = none
  minR : s.minR2 = none ∧ t.minR2 = none
  maxR : s.maxR2 = none ∧ t.maxR2 = none

theorem asim_new {b : Prop} {vs : List (Vec2 (Fl R))} (h : classifyRun (vs.map Vec2.exact) = classifyRun vs)
    (hk : b → checkSimple (vs.map Vec2.exact) = checkSimple vs) (h4 : 4 ≤ vs.length)
    (c m : Option Bool) : ∃ s t, Polygon.new vs c m = .ok s ∧ Polygon.new (vs.map Vec2.exact) c m = .ok t ∧ ASim b vs s t := by
  have hm1 : vs.map Vec2.copy = vs := List.map_id'' Vec2.copy_fl vs
  have hm2 : (vs.map Vec2.exact).map Vec2.copy = vs.map Vec2.exact := List.map_id'' Vec2.copy_fl _
  have hl : ¬ vs.length < 3 := by omega
  have hl3 : vs.length > 3 := by omega
  unfold Polygon.new
  simp only [hm1, hm2, List.length_map, hl, if_false]
  refine ⟨_, _, rfl, rfl, ?_⟩
  rcases c with _ | _ | _ <;> rcases m with _ | _ <;>
    constructor <;> first | exact h | exact hk | (simp [cleared, hl3, h4, split_exact]; try first | exact h | exact hk)

theorem asim_cleared {b : Prop} {vs : List (Vec2 (Fl R))} (h : classifyRun (vs.map Vec2.exact) = classifyRun vs)
    (hk : b → checkSimple (vs.map Vec2.exact) = checkSimple vs) (h4 : 4 ≤ vs.length)
    (o : Option (TriClosure (Fl R))) (o' : Option (TriClosure F)) :
    ASim b vs (cleared vs o) (cleared (vs.map Vec2.exact) o') := by
  constructor <;> first | exact h | exact hk | simp [cleared, h4]

theorem asim_classify {b : Prop} {vs : List (Vec2 (Fl R))} {s : Polygon (Fl R)} {t : Polygon F} (h : ASim b vs s t) :
    ASim b vs s.classify t.classify := by
  have hr := h.run
  have hsp : splitYPolylines t.verts = exactPls (splitYPolylines s.verts) := by rw [h.verts, split_exact]
  have hlen : t.verts.length = s.verts.length := by rw [h.verts, List.length_map]
  unfold classify
  simp only [hr, hlen, hsp]
  set convex := (if (Polygon.classifyRun s.verts).dirChanges ≤ 2 then (Polygon.classifyRun s.verts).convex else false)
  set degenerate := ((Polygon.classifyRun s.verts).count == 0 || (Polygon.classifyRun s.verts).angleSign == 0)
  split
  · exact ⟨h.verts, h.orig, h.run, h.chk, h.long, rfl, rfl, fun _ => rfl, rfl, rfl, by rintro pl ⟨⟩; rfl, h.bbox, h.cen, h.minR, h.maxR⟩
  · exact ⟨h.verts, h.orig, h.run, h.chk, h.long, rfl, rfl, fun _ => rfl, h.dupe, h.pls, h.plsIs, h.bbox, h.cen, h.minR, h.maxR⟩

theorem asim_isConvex {b : Prop} {vs : List (Vec2 (Fl R))} {s : Polygon (Fl R)} {t : Polygon F} (h : ASim b vs s t) :
    t.isConvex.1 = s.isConvex.1 ∧ ASim b vs s.isConvex.2 t.isConvex.2 := by
  unfold isConvex
  rw [h.convex]
  have hc := asim_classify h
  cases s.convex with
  | some b => exact ⟨rfl, h⟩
  | none => exact ⟨by simp only [hc.convex], hc⟩

theorem asim_isSimple {b : Prop} {vs : List (Vec2 (Fl R))} {s : Polygon (Fl R)} {t : Polygon F} (h : ASim b vs s t) :
    (b → t.isSimple.1 = s.isSimple.1) ∧ ASim b vs s.isSimple.2 t.isSimple.2 := by
  have key : ∀ (s : Polygon (Fl R)) (t : Polygon F), ASim b vs s t →
      (b → (match t.simple with
        | some b => (b, t)
        | none => (checkSimple t.verts, { t with simple := some (checkSimple t.verts) })).1 =
      (match s.simple with
        | some b => (b, s)
        | none => (checkSimple s.verts, { s with simple := some (checkSimple s.verts) })).1) ∧
      ASim b vs (match s.simple with
        | some b => (b, s)
        | none => (checkSimple s.verts, { s with simple := some (checkSimple s.verts) })).2
      (match t.simple with
        | some b => (b, t)
        | none => (checkSimple t.verts, { t with simple := some (checkSimple t.verts) })).2 := by
    intro s t h
    have hi := h.isSm
    have hsm := h.simple
    cases hs : s.simple <;> cases ht : t.simple <;> rw [hs, ht] at hi hsm
    · refine ⟨fun hb => h.chk hb, ⟨h.verts, h.orig, h.run, h.chk, h.long, h.convex, rfl, ?_, h.dupe, h.pls, h.plsIs, h.bbox, h.cen, h.minR, h.maxR⟩⟩
      intro hb
      simp only [h.chk hb]
    · cases hi
    · cases hi
    · exact ⟨fun hb => by have := hsm hb; simp only [Option.some.injEq] at this; exact this, h⟩
  have hi := h.isSm
  have hsm := h.simple
  unfold isSimple
  cases hs : s.simple <;> cases ht : t.simple <;> rw [hs, ht] at hi hsm
  · simp only
    rw [h.convex]
    cases s.convex with
    | some b => exact key s t h
    | none => exact key _ _ (asim_classify h)
  · cases hi
  · cases hi
  · exact ⟨fun hb => by have := hsm hb; simp only [Option.some.injEq] at this; exact this, h⟩

theorem asim_boundingBox {b : Prop} {vs : List (Vec2 (Fl R))} {s : Polygon (Fl R)} {t : Polygon F} (h : ASim b vs s t) :
    t.boundingBox.1 = s.boundingBox.1.map Box.exact ∧ ASim b vs s.boundingBox.2 t.boundingBox.2 := by
  unfold boundingBox
  rw [h.bbox]
  cases s.bbox with
  | some b => exact ⟨rfl, h⟩
  | none =>
    simp only [Option.map]
    rw [h.verts, fromPoints_exact]
    cases Box.fromPoints s.verts with
    | error e => exact ⟨rfl, h⟩
    | ok b =>
      refine ⟨rfl, ?_⟩
      exact ⟨rfl, h.orig, by have := h.run; rwa [h.verts] at this, by have := h.chk; rwa [h.verts] at this, h.long, h.convex,
        h.isSm, h.simple, h.dupe, h.pls, h.plsIs, rfl, h.cen, h.minR, h.maxR⟩

theorem asim_contains {b : Prop} {vs : List (Vec2 (Fl R))} {s : Polygon (Fl R)} {t : Polygon F} (h : ASim b vs s t) (eps : Fl R) (eps' : F)
    (p : PyPoint (Fl R)) (q : PyPoint F) (hq : q.toVec = p.toVec.exact) :
    ((∀ e ∈ edges s.verts, EdgeOk p.toVec e.1 e.2) → (t.containsPoint eps' q).1 = (s.containsPoint eps p).1) ∧
    ASim b vs (s.containsPoint eps p).2 (t.containsPoint eps' q).2 := by
  have hlen : t.verts.length = s.verts.length := by rw [h.verts, List.length_map]
  have hl := h.long
  have h3 : ¬ s.verts.length = 3 := by omega
  have hbb := asim_boundingBox h
  have hv1 : s.boundingBox.2.verts = s.verts := by
    unfold boundingBox
    cases s.bbox with
    | some b => rfl
    | none => cases h : Box.fromPoints s.verts <;> simp only
  unfold containsPoint
  simp only [hlen, h3, if_false, h.cen.1, h.cen.2, hq]
  rw [h.pls]
  cases hy : s.yPolylines with
  | some pls =>
    refine ⟨fun hok => ?_, h⟩
    rw [h.plsIs pls hy]
    have := ok_pnpYMonotone (p := p.toVec) hok (by rintro h0; rw [h0] at hl; simp at hl)
    rw [split_exact] at this
    exact this
  | none =>
    simp only [Option.map]
    by_cases h4 : s.verts.length = 4
    · simp only [h4, if_true]
      exact ⟨fun hok => by rw [h.verts, ← ok_pnpWinding hok], h⟩
    · simp only [h4, if_false]
      rcases hx : s.boundingBox with ⟨r1, t1⟩
      rcases hz : t.boundingBox with ⟨r2, t2⟩
      rw [hx, hz] at hbb
      rw [hx] at hv1
      obtain ⟨hb1, hb2⟩ := hbb
      simp only at hb1 hb2 hv1
      subst hb1
      cases r1 with
      | error e => exact ⟨fun _ => rfl, hb2⟩
      | ok b =>
        simp only [Except.map, boxContains_exact]
        split
        · exact ⟨fun hok => by rw [hb2.verts, ← ok_pnpWinding (by rw [hv1]; exact hok)], hb2⟩
        · exact ⟨fun _ => rfl, hb2⟩

/-- A new object, whatever its corners. -/
theorem ok_fresh_contains {vs : List (Vec2 (Fl R))} (h4 : 4 ≤ vs.length) (eps : Fl R) (eps' : F)
    (p : PyPoint (Fl R)) (q : PyPoint F) (hq : q.toVec = p.toVec.exact) (hok : ∀ e ∈ edges vs, EdgeOk p.toVec e.1 e.2) :
    ((fromPoints (vs.map Vec2.exact)).containsPoint eps' q).1 = ((fromPoints vs).containsPoint eps p).1 := by
  have h3 : ¬ vs.length = 3 := by omega
  have e1 : (fromPoints vs).centroid = none := rfl
  have e2 : (fromPoints (vs.map Vec2.exact)).centroid = none := rfl
  have e3 : (fromPoints vs).yPolylines = none := rfl
  have e4 : (fromPoints (vs.map Vec2.exact)).yPolylines = none := rfl
  have e5 : (fromPoints vs).verts = vs := rfl
  have e6 : (fromPoints (vs.map Vec2.exact)).verts = vs.map Vec2.exact := rfl
  have e7 : (fromPoints vs).bbox = none := rfl
  have e8 : (fromPoints (vs.map Vec2.exact)).bbox = none := rfl
  unfold containsPoint
  simp only [e1, e2, e3, e4, e5, e6, List.length_map, h3, if_false, hq]
  by_cases h : vs.length = 4
  · simp only [h, if_true]
    rw [← ok_pnpWinding hok]
  · simp only [h, if_false]
    unfold boundingBox
    simp only [e5, e6, e7, e8, fromPoints_exact]
    cases Box.fromPoints vs with
    | error e => rfl
    | ok b =>
      simp only [Except.map, boxContains_exact]
      split
      · rw [← ok_pnpWinding hok]
      · rfl

/-! ### Tangents -/

/-- The orientation tests of a tangent query from `p`: of `p` about the edges, of the vertices as seen from `p`. -/
structure SightOk (vs : List (Vec2 (Fl R))) (p : Vec2 (Fl R)) : Prop where
  edge : ∀ e ∈ edges vs, TurnOk p e.1 e.2
  pair : ∀ a ∈ vs, ∀ b ∈ vs, TurnOk b p a

theorem ok_ptAbove {p a b : Vec2 (Fl R)} (h : TurnOk b p a) : Polygon.ptAbove p.exact a.exact b.exact = Polygon.ptAbove p a b := by
  unfold TurnOk at h
  unfold Polygon.ptAbove
  simp only [gt_iff_lt, val_lt, val_zero, h.pos]

theorem ok_ptBelow {p a b : Vec2 (Fl R)} (h : TurnOk b p a) : Polygon.ptBelow p.exact a.exact b.exact = Polygon.ptBelow p a b := by
  unfold TurnOk at h
  unfold Polygon.ptBelow
  simp only [val_lt, val_zero, h.neg]

theorem ok_tangentsLoop {p : Vec2 (Fl R)} {ws : List (Vec2 (Fl R))} (hp : ∀ a ∈ ws, ∀ b ∈ ws, TurnOk b p a) :
    ∀ (vs : List (Vec2 (Fl R))) (v0 : Vec2 (Fl R)) (t : Fl R) (t' : F) (l r : Vec2 (Fl R)),
    (∀ e ∈ edgesFrom v0 vs, TurnOk p e.1 e.2) → (∀ v ∈ vs, v ∈ ws) → v0 ∈ ws → l ∈ ws → r ∈ ws → SameSign t t' →
    Polygon.tangentsLoop p.exact (vs.map Vec2.exact) v0.exact t' l.exact r.exact =
      ((Polygon.tangentsLoop p vs v0 t l r).1.exact, (Polygon.tangentsLoop p vs v0 t l r).2.exact) := by
  intro vs
  induction vs with
  | nil => intro v0 t t' l r _ _ _ _ _ _; rfl
  | cons v vs ih =>
    intro v0 t t' l r he hw h0 hl hr ht
    have hv := hw v List.mem_cons_self
    have e1 : SameSign (Polygon.turn p v0 v) (Polygon.turn p.exact v0.exact v.exact) := he (v0, v) List.mem_cons_self
    have e2 := hp v0 h0 r hr
    have e3 := hp v0 h0 l hl
    unfold TurnOk at e2 e3
    have ih' := fun l r hl hr => ih v _ _ l r (fun e h => he e (List.mem_cons_of_mem _ h)) (fun x hx => hw x (List.mem_cons_of_mem _ hx))
      hv hl hr e1
    simp only [List.map_cons, Polygon.tangentsLoop, Vec2.copy_fl, gt_iff_lt, ge_iff_le, val_lt, val_le, val_zero,
      e1.pos, e1.nonpos, e2.nonneg, e3.nonpos, ht.pos, ht.nonpos]
    split_ifs
    · exact ih' _ _ hl h0
    · exact ih' _ _ hl hr
    · exact ih' _ _ h0 hr
    · exact ih' _ _ hl hr
    · exact ih' _ _ hl hr

theorem nth_get {vs : List (Vec2 (Fl R))} {i : Int} {k : Nat} (hi : pyIndex vs.length i = some k) :
    pyGet vs i = .ok (nth vs i) ∧ ∃ h : k < vs.length, nth vs i = vs[k] := by
  have hk : k < vs.length := by unfold pyIndex at hi; split_ifs at hi <;> cases hi <;> omega
  unfold nth pyGet
  simp only [hi, List.getElem?_eq_getElem hk]
  exact ⟨trivial, hk, trivial⟩

theorem edge_last2 {vs : List (Vec2 (Fl R))} (h2 : 2 ≤ vs.length) : (nth vs (-2), nth vs (-1)) ∈ edges vs := by
  have i1 : pyIndex vs.length (-1) = some (vs.length - 1) := by
    unfold pyIndex; rw [if_neg (by omega), if_pos (by omega)]; simp only [Option.some.injEq]; omega
  have i2 : pyIndex vs.length (-2) = some (vs.length - 2) := by
    unfold pyIndex; rw [if_neg (by omega), if_pos (by omega)]; simp only [Option.some.injEq]; omega
  obtain ⟨-, k1, e1⟩ := nth_get i1
  obtain ⟨-, k2, e2⟩ := nth_get i2
  rw [← range_map_edges]
  refine List.mem_map.mpr ⟨vs.length - 1, by simp; omega, ?_⟩
  have : ((vs.length - 1 : Nat) : Int) - 1 = ((vs.length - 2 : Nat) : Int) := by omega
  rw [this, nth_ofNat vs _ k1, nth_ofNat vs _ k2, e1, e2]

theorem ok_ptTangents {p : Vec2 (Fl R)} {vs : List (Vec2 (Fl R))} (h : SightOk vs p) (h2 : 2 ≤ vs.length) :
    Polygon.ptTangents (vs.map Vec2.exact) p.exact = (Polygon.ptTangents vs p).map exactTan := by
  have hne : vs ≠ [] := by rintro rfl; simp at h2
  have i0 : pyIndex vs.length 0 = some 0 := by
    unfold pyIndex; rw [if_pos (by omega), if_pos (by omega)]; rfl
  have i1 : pyIndex vs.length (-1) = some (vs.length - 1) := by
    unfold pyIndex; rw [if_neg (by omega), if_pos (by omega)]; simp only [Option.some.injEq]; omega
  have i2 : pyIndex vs.length (-2) = some (vs.length - 2) := by
    unfold pyIndex; rw [if_neg (by omega), if_pos (by omega)]; simp only [Option.some.injEq]; omega
  have g1 := (nth_get i0).1
  have g2 := (nth_get i2).1
  have g3 := (nth_get i1).1
  have hloop := ok_tangentsLoop h.pair vs (nth vs (-1)) (turn p (nth vs (-2)) (nth vs (-1)))
    (turn p.exact (nth vs (-2)).exact (nth vs (-1)).exact) (nth vs 0) (nth vs 0)
    (by rw [nth_neg_one vs hne, ← edges_ne_nil hne]; exact h.edge) (fun v hv => hv) (pyGet_mem g3) (pyGet_mem g1) (pyGet_mem g1)
    (by have := h.edge _ (edge_last2 h2); exact this)
  unfold Polygon.ptTangents
  simp only [pyGet_map, g1, g2, g3, Except.map, bind, Except.bind, pure, Except.pure]
  rw [hloop]
  rfl

theorem ok_leftTanLoop {p : Vec2 (Fl R)} {vs : List (Vec2 (Fl R))} (h : SightOk vs p) : ∀ (n : Nat) (a b : Int),
    Polygon.leftTanLoop (vs.map Vec2.exact) p.exact n a b = Polygon.leftTanLoop vs p n a b := by
  intro n
  induction n with
  | zero => intro a b; rfl
  | succ n ih =>
    intro a b
    simp only [Polygon.leftTanLoop, pyGet_map, ih]
    cases h1 : pyGet vs ((a + b) / 2 + 1) with
    | error e => rfl
    | ok v1 =>
      cases h2 : pyGet vs ((a + b) / 2) with
      | error e => rfl
      | ok v2 =>
        cases h3 : pyGet vs ((a + b) / 2 - 1) with
        | error e => rfl
        | ok v3 =>
          have g1 := pyGet_mem h1
          have g2 := pyGet_mem h2
          have g3 := pyGet_mem h3
          simp only [Except.map, bind, Except.bind, pure, Except.pure, ok_ptBelow (h.pair _ g1 _ g2), ok_ptAbove (h.pair _ g3 _ g2)]
          split
          · rfl
          · cases h4 : pyGet vs (a + 1) with
            | error e => rfl
            | ok v4 =>
              cases h5 : pyGet vs a with
              | error e => rfl
              | ok v5 =>
                have g4 := pyGet_mem h4
                have g5 := pyGet_mem h5
                simp only [ok_ptBelow (h.pair _ g4 _ g5), ok_ptBelow (h.pair _ g5 _ g2), ok_ptAbove (h.pair _ g5 _ g2)]

theorem ok_rightTanLoop {p : Vec2 (Fl R)} {vs : List (Vec2 (Fl R))} (h : SightOk vs p) : ∀ (n : Nat) (a b : Int),
    Polygon.rightTanLoop (vs.map Vec2.exact) p.exact n a b = Polygon.rightTanLoop vs p n a b := by
  intro n
  induction n with
  | zero => intro a b; rfl
  | succ n ih =>
    intro a b
    simp only [Polygon.rightTanLoop, pyGet_map, ih]
    cases h1 : pyGet vs ((a + b) / 2 + 1) with
    | error e => rfl
    | ok v1 =>
      cases h2 : pyGet vs ((a + b) / 2) with
      | error e => rfl
      | ok v2 =>
        cases h3 : pyGet vs ((a + b) / 2 - 1) with
        | error e => rfl
        | ok v3 =>
          have g1 := pyGet_mem h1
          have g2 := pyGet_mem h2
          have g3 := pyGet_mem h3
          simp only [Except.map, bind, Except.bind, pure, Except.pure, ok_ptBelow (h.pair _ g1 _ g2), ok_ptAbove (h.pair _ g3 _ g2)]
          split
          · rfl
          · cases h4 : pyGet vs (a + 1) with
            | error e => rfl
            | ok v4 =>
              cases h5 : pyGet vs a with
              | error e => rfl
              | ok v5 =>
                have g4 := pyGet_mem h4
                have g5 := pyGet_mem h5
                simp only [ok_ptAbove (h.pair _ g4 _ g5), ok_ptBelow (h.pair _ g5 _ g2), ok_ptAbove (h.pair _ g5 _ g2)]

theorem ok_leftTan {p : Vec2 (Fl R)} {vs : List (Vec2 (Fl R))} (h : SightOk vs p) :
    Polygon.leftTan (vs.map Vec2.exact) p.exact = Polygon.leftTan vs p := by
  unfold Polygon.leftTan
  simp only [pyGet_map, ok_leftTanLoop h, List.length_map]
  cases h1 : pyGet vs 0 with
  | error e => rfl
  | ok v1 =>
    cases h2 : pyGet vs (-1) with
    | error e => rfl
    | ok v2 =>
      cases h3 : pyGet vs (-2) with
      | error e => rfl
      | ok v3 =>
        simp only [Except.map, bind, Except.bind, ok_ptBelow (h.pair _ (pyGet_mem h1) _ (pyGet_mem h2)),
          ok_ptAbove (h.pair _ (pyGet_mem h3) _ (pyGet_mem h2))]

theorem ok_rightTan {p : Vec2 (Fl R)} {vs : List (Vec2 (Fl R))} (h : SightOk vs p) :
    Polygon.rightTan (vs.map Vec2.exact) p.exact = Polygon.rightTan vs p := by
  unfold Polygon.rightTan
  simp only [pyGet_map, ok_rightTanLoop h, List.length_map]
  cases h1 : pyGet vs 0 with
  | error e => rfl
  | ok v1 =>
    cases h2 : pyGet vs (-1) with
    | error e => rfl
    | ok v2 =>
      cases h3 : pyGet vs (-2) with
      | error e => rfl
      | ok v3 =>
        simp only [Except.map, bind, Except.bind, ok_ptBelow (h.pair _ (pyGet_mem h1) _ (pyGet_mem h2)),
          ok_ptAbove (h.pair _ (pyGet_mem h3) _ (pyGet_mem h2))]

/-- The answers of a tangent query. -/
theorem asim_tangentsAnswer {b : Prop} {vs : List (Vec2 (Fl R))} {s : Polygon (Fl R)} {t : Polygon F} (h : ASim b vs s t)
    {p : Vec2 (Fl R)} (hp : SightOk s.verts p) :
    (t.tangentsToPoint p.exact).1 = (s.tangentsToPoint p).1.map exactTan := by
  have hlen : t.verts.length = s.verts.length := by rw [h.verts, List.length_map]
  obtain ⟨hc, hS⟩ := asim_isConvex h
  have hv : s.isConvex.2.verts = s.verts := by rw [hS.orig, h.orig]
  have h4 := h.long
  have slow : ∀ (s' : Polygon (Fl R)) (t : Polygon F), s'.verts = s.verts → ASim b vs s' t →
      ptTangents t.verts p.exact = (ptTangents s'.verts p).map exactTan := by
    intro s' t e h'; rw [h'.verts, e]; exact ok_ptTangents hp (by omega)
  unfold tangentsToPoint
  simp only [hlen]
  split
  · simp only [hc, hS.dupe]
    split
    · simp only
      rw [hS.verts, hv, ok_leftTan hp, ok_rightTan hp]
      cases leftTan s.verts p with
      | error e => rfl
      | ok l =>
        simp only [bind, Except.bind, pyGet_map]
        cases pyGet s.verts l with
        | error e => rfl
        | ok lv =>
          simp only [Except.map]
          cases rightTan s.verts p with
          | error e => rfl
          | ok r =>
            simp only
            cases pyGet s.verts r with
            | error e => rfl
            | ok rv => rfl
    · exact slow _ _ hv hS
  · exact slow _ _ rfl h

/-- What a tangent query leaves behind. (Its answers need not be exact.) -/
theorem asim_tangents {b : Prop} {vs : List (Vec2 (Fl R))} {s : Polygon (Fl R)} {t : Polygon F} (h : ASim b vs s t)
    (p : Vec2 (Fl R)) (q : Vec2 F) : ASim b vs (s.tangentsToPoint p).2 (t.tangentsToPoint q).2 := by
  have hlen : t.verts.length = s.verts.length := by rw [h.verts, List.length_map]
  obtain ⟨hc, hS⟩ := asim_isConvex h
  unfold tangentsToPoint
  simp only [hlen]
  split
  · simp only [hc, hS.dupe]
    split
    · exact hS
    · exact hS
  · exact h

end Planar
