import Verif.Lemmas.GridPoly
/- On a grid: boxes, the sweep of `is_simple`, the polyline test, tangents. -/
set_option linter.unusedSectionVars false
namespace Planar
open Spec Polygon

variable {F : Type} [Field F] [LinearOrder F] [IsStrictOrderedRing F] {R : Rounding F} {u : F} {B : ℤ}

/-! ### Boxes (no rounding at all) -/

/-- The box of the exact corners. -/
def Box.exact (b : Box (Fl R)) : Box F := ⟨b.min.exact, b.max.exact⟩

theorem boxStep_exact (mn mx p : Vec2 (Fl R)) :
    Box.step mn.exact mx.exact p.exact = ((Box.step mn mx p).1.exact, (Box.step mn mx p).2.exact) := by
  unfold Box.step
  simp only [f_mul_one]
  by_cases h1 : p.x < mn.x <;> by_cases h2 : p.x > mx.x <;> by_cases h3 : p.y < mn.y <;> by_cases h4 : p.y > mx.y <;>
    simp only [h1, h2, h3, h4, if_true, if_false] <;>
    simp only [gt_iff_lt, val_lt] at h1 h2 h3 h4 <;>
    simp [Vec2.exact, h1, h2, h3, h4]

theorem copy_exact (v : Vec2 (Fl R)) : v.copy.exact = v.exact.copy := by
  rw [Vec2.copy_fl, Vec2.copy_fl]

theorem fromPoints_exact (vs : List (Vec2 (Fl R))) :
    Box.fromPoints (vs.map Vec2.exact) = (Box.fromPoints vs).map Box.exact := by
  cases vs with
  | nil => rfl
  | cons p vs =>
    have key : ∀ (l : List (Vec2 (Fl R))) (a b : Vec2 (Fl R)),
        (l.map Vec2.exact).foldl (fun (acc : Vec2 F × Vec2 F) q => Box.step acc.1 acc.2 q) (a.exact, b.exact) =
        ((l.foldl (fun (acc : Vec2 (Fl R) × Vec2 (Fl R)) q => Box.step acc.1 acc.2 q) (a, b)).1.exact,
         (l.foldl (fun (acc : Vec2 (Fl R) × Vec2 (Fl R)) q => Box.step acc.1 acc.2 q) (a, b)).2.exact) := by
      intro l
      induction l with
      | nil => intro a b; rfl
      | cons q l ih => intro a b; simp only [List.map_cons, List.foldl_cons, boxStep_exact, ih]
    simp only [List.map_cons, Box.fromPoints, key]
    simp only [Except.map, Box.exact, copy_exact]

theorem boxContains_exact (b : Box (Fl R)) (p : Vec2 (Fl R)) : b.exact.containsPoint p.exact = b.containsPoint p := by
  unfold Box.containsPoint Box.exact
  simp only [val_lt, val_le, exact_x, exact_y]
  rfl

/-! ### Simplicity -/

theorem pySorted_map {α β : Type} (f : α → β) (lt : α → α → Bool) (lt' : β → β → Bool)
    (h : ∀ a b, lt' (f a) (f b) = lt a b) (l : List α) : pySorted lt' (l.map f) = (pySorted lt l).map f := by
  unfold pySorted
  have key : ∀ (a : α) (l : List α), (l.map f).orderedInsert (fun a b => lt' b a = false) (f a) =
      (l.orderedInsert (fun a b => lt b a = false) a).map f := by
    intro a l
    induction l with
    | nil => rfl
    | cons b l ih =>
      simp only [List.map_cons, List.orderedInsert, h]
      split
      · rfl
      · rw [List.map_cons, ← ih]
  induction l with
  | nil => rfl
  | cons a l ih => simp only [List.map_cons, List.insertionSort_cons, ih, key]

theorem FineGrid.segmentsIntersect (hG : FineGrid R u B) {a b c d : Vec2 (Fl R)} (ha : OnGrid u B a) (hb : OnGrid u B b)
    (hc : OnGrid u B c) (hd : OnGrid u B d) :
    Polygon.segmentsIntersect a.exact b.exact c.exact d.exact = Polygon.segmentsIntersect a b c d := by
  unfold Polygon.segmentsIntersect
  simp only [gt_iff_lt, val_lt, val_beq, hG.turn hc ha hb, hG.turn hd ha hb, hG.turn ha hc hd, hG.turn hb hc hd, val_zero]

/-- A sweep entry with exact coordinates. -/
def Polygon.SweepPt.exact (p : SweepPt (Fl R)) : SweepPt F := ⟨p.start.exact, p.stop.exact, p.index⟩

theorem vecLtThen_exact (a b : Vec2 (Fl R)) (r : Bool) : vecLtThen a.exact b.exact r = vecLtThen a b r := by
  unfold vecLtThen
  simp only [val_lt, val_beq, exact_x, exact_y]
  rfl

theorem sweepPoints_exact (vs : List (Vec2 (Fl R))) :
    sweepPoints (vs.map Vec2.exact) = (sweepPoints vs).map SweepPt.exact := by
  unfold sweepPoints
  simp only [List.length_map, nth_exact]
  rw [← pySorted_map SweepPt.exact sweepLt sweepLt]
  · rw [List.map_append, List.map_map, List.map_map]; rfl
  · intro a b
    simp only [sweepLt, SweepPt.exact, vecLtThen_exact]
    rfl

theorem sweepPoints_grid (hB : 0 ≤ B) {vs : List (Vec2 (Fl R))} (h : ∀ v ∈ vs, OnGrid u B v) :
    ∀ p ∈ sweepPoints vs, OnGrid u B p.start ∧ OnGrid u B p.stop := by
  intro p hp
  unfold sweepPoints pySorted at hp
  simp only at hp
  rw [List.Perm.mem_iff (List.perm_insertionSort _ _), List.mem_append] at hp
  rcases hp with hp | hp <;> obtain ⟨i, -, rfl⟩ := List.mem_map.mp hp <;>
    exact ⟨nth_grid hB h _, nth_grid hB h _⟩

theorem FineGrid.sweepLoop (hG : FineGrid R u B) (n : Nat) : ∀ (ps opens : List (SweepPt (Fl R))),
    (∀ p ∈ ps, OnGrid u B p.start ∧ OnGrid u B p.stop) → (∀ p ∈ opens, OnGrid u B p.start ∧ OnGrid u B p.stop) →
    Polygon.sweepLoop n (ps.map SweepPt.exact) (opens.map SweepPt.exact) = Polygon.sweepLoop n ps opens := by
  intro ps
  induction ps with
  | nil => intro opens _ _; rfl
  | cons p ps ih =>
    intro opens hps ho
    have hp := hps p List.mem_cons_self
    have hps' : ∀ q ∈ ps, OnGrid u B q.start ∧ OnGrid u B q.stop := fun q hq => hps q (List.mem_cons_of_mem _ hq)
    have h1 : (opens.map SweepPt.exact).any (fun o => o.index == p.exact.index) =
        opens.any (fun o => o.index == p.index) := by
      rw [List.any_map]; rfl
    have h2 : (opens.map SweepPt.exact).filter (fun o => o.index != p.exact.index) =
        (opens.filter fun o => o.index != p.index).map SweepPt.exact := by
      rw [List.filter_map]; rfl
    have h3 : meetsOpen n p.exact (opens.map SweepPt.exact) = meetsOpen n p opens := by
      unfold meetsOpen
      rw [List.any_map]
      clear h1 h2 ih hps hps'
      induction opens with
      | nil => rfl
      | cons o os ih =>
        have := ho o List.mem_cons_self
        rw [List.any_cons, List.any_cons, ih fun q hq => ho q (List.mem_cons_of_mem _ hq)]
        congr 1
        change ((_ && _) && Polygon.segmentsIntersect p.start.exact p.stop.exact o.start.exact o.stop.exact) = _
        rw [hG.segmentsIntersect hp.1 hp.2 this.1 this.2]
        rfl
    simp only [Polygon.sweepLoop, List.map_cons, h1, h2, h3]
    rw [ih _ hps' fun q hq => ho q (List.mem_of_mem_filter hq)]
    have := ih (opens ++ [p]) hps' (by
      intro q hq
      rcases List.mem_append.mp hq with hq | hq
      · exact ho q hq
      · rw [List.mem_singleton.mp hq]; exact hp)
    rw [List.map_append, List.map_singleton] at this
    rw [this]

theorem FineGrid.checkSimple (hG : FineGrid R u B) {vs : List (Vec2 (Fl R))} (h : ∀ v ∈ vs, OnGrid u B v) :
    Polygon.checkSimple (vs.map Vec2.exact) = Polygon.checkSimple vs := by
  unfold Polygon.checkSimple
  rw [sweepPoints_exact, List.length_map]
  exact hG.sweepLoop _ _ [] (sweepPoints_grid hG.pos.le h) (by simp)

/-! ### The polyline test -/

theorem ptLt_exact (y : Fl R) (p : Fl R × Fl R) : ptLt y.val (exactPair p) = ptLt y p := by
  unfold ptLt exactPair
  simp only [val_lt, val_beq]

theorem bisectLoop_exact (pl : List (Fl R × Fl R)) (y : Fl R) (lo hi : Nat) :
    bisectLoop (pl.map exactPair) y.val lo hi = bisectLoop pl y lo hi := by
  induction lo, hi using bisectLoop.induct pl y with
  | case1 lo hi h mid yx hyx hlt ih =>
    rw [bisectLoop, bisectLoop]
    simp only [h, dite_true, List.getElem?_map]
    rw [show pl[(lo + hi) / 2]? = some yx from hyx]
    simp only [Option.map_some, ptLt_exact, hlt, if_true]
    exact ih
  | case2 lo hi h mid yx hyx hlt ih =>
    rw [bisectLoop, bisectLoop]
    simp only [h, dite_true, List.getElem?_map]
    rw [show pl[(lo + hi) / 2]? = some yx from hyx]
    simp only [Option.map_some, ptLt_exact, hlt, if_false]
    exact ih
  | case3 lo hi h mid hn =>
    rw [bisectLoop, bisectLoop]
    simp only [h, dite_true, List.getElem?_map]
    rw [show pl[(lo + hi) / 2]? = none from hn]
    rfl
  | case4 lo hi h =>
    rw [bisectLoop, bisectLoop]
    simp only [h, dite_false]

theorem bisectRight_exact (pl : List (Fl R × Fl R)) (y : Fl R) :
    bisectRight (pl.map exactPair) y.val = bisectRight pl y := by
  unfold bisectRight
  rw [bisectLoop_exact, List.length_map]

/-- Both numbers of a pair on the grid. -/
def PairGrid (u : F) (B : ℤ) (p : Fl R × Fl R) : Prop := Grid u B p.1 ∧ Grid u B p.2

theorem FineGrid.turnPair (hG : FineGrid R u B) {p : Vec2 (Fl R)} {a b : Fl R × Fl R} (hp : OnGrid u B p)
    (ha : PairGrid u B a) (hb : PairGrid u B b) :
    ((b.2 - a.2) * (p.y - a.1) - (p.x - a.2) * (b.1 - a.1)).val =
      (b.2.val - a.2.val) * (p.y.val - a.1.val) - (p.x.val - a.2.val) * (b.1.val - a.1.val) :=
  hG.turn (v0 := ⟨a.2, a.1⟩) (v1 := ⟨b.2, b.1⟩) hp ⟨ha.2, ha.1⟩ ⟨hb.2, hb.1⟩

theorem FineGrid.pnpYMonotone (hG : FineGrid R u B) {p : Vec2 (Fl R)} (hp : OnGrid u B p)
    {pls : List (Fl R × Fl R) × List (Fl R × Fl R)} (h1 : ∀ q ∈ pls.1, PairGrid u B q) (h2 : ∀ q ∈ pls.2, PairGrid u B q) :
    Polygon.pnpYMonotone (pls.1.map exactPair, pls.2.map exactPair) p.exact = Polygon.pnpYMonotone pls p := by
  unfold Polygon.pnpYMonotone
  simp only [exact_y, bisectRight_exact, List.length_map, pyGet_map]
  split
  · rfl
  · cases ha : pyGet pls.1 (((bisectRight pls.1 p.y : Nat) : Int) - 1) with
    | error e => rfl
    | ok a =>
      cases hb : pyGet pls.1 ((bisectRight pls.1 p.y : Nat) : Int) with
      | error e => rfl
      | ok b =>
        have e1 := hG.turnPair hp (h1 a (pyGet_mem ha)) (h1 b (pyGet_mem hb))
        simp only [Except.map, bind, Except.bind, exactPair, gt_iff_lt, val_lt, e1, val_zero, exact_x, pure, Except.pure]
        split
        · rfl
        · cases hc : pyGet pls.2 (((bisectRight pls.2 p.y : Nat) : Int) - 1) with
          | error e => rfl
          | ok c =>
            cases hd : pyGet pls.2 ((bisectRight pls.2 p.y : Nat) : Int) with
            | error e => rfl
            | ok d =>
              have e2 := hG.turnPair hp (h2 c (pyGet_mem hc)) (h2 d (pyGet_mem hd))
              simp only [e2, val_lt, val_zero]

/-! ### Tangents -/

theorem FineGrid.turnF (hG : FineGrid R u B) {p v0 v1 : Vec2 (Fl R)} (hp : OnGrid u B p) (h0 : OnGrid u B v0)
    (h1 : OnGrid u B v1) : (Polygon.turn p v0 v1).val = Polygon.turn p.exact v0.exact v1.exact := hG.turn hp h0 h1

theorem FineGrid.cmp (hG : FineGrid R u B) {p a b : Vec2 (Fl R)} (hp : OnGrid u B p) (ha : OnGrid u B a)
    (hb : OnGrid u B b) :
    ((a.x - p.x) * (b.y - p.y) - (b.x - p.x) * (a.y - p.y)).val =
      (a.exact.x - p.exact.x) * (b.exact.y - p.exact.y) - (b.exact.x - p.exact.x) * (a.exact.y - p.exact.y) :=
  hG.turn hb hp ha

theorem FineGrid.ptAbove (hG : FineGrid R u B) {p a b : Vec2 (Fl R)} (hp : OnGrid u B p) (ha : OnGrid u B a)
    (hb : OnGrid u B b) : Polygon.ptAbove p.exact a.exact b.exact = Polygon.ptAbove p a b := by
  unfold Polygon.ptAbove
  simp only [gt_iff_lt, val_lt, hG.cmp hp ha hb, val_zero]

theorem FineGrid.ptBelow (hG : FineGrid R u B) {p a b : Vec2 (Fl R)} (hp : OnGrid u B p) (ha : OnGrid u B a)
    (hb : OnGrid u B b) : Polygon.ptBelow p.exact a.exact b.exact = Polygon.ptBelow p a b := by
  unfold Polygon.ptBelow
  simp only [val_lt, hG.cmp hp ha hb, val_zero]

theorem FineGrid.tangentsLoop (hG : FineGrid R u B) {p : Vec2 (Fl R)} (hp : OnGrid u B p) :
    ∀ (vs : List (Vec2 (Fl R))), (∀ v ∈ vs, OnGrid u B v) → ∀ (v0 : Vec2 (Fl R)) (t : Fl R) (l r : Vec2 (Fl R)),
    OnGrid u B v0 → OnGrid u B l → OnGrid u B r →
    Polygon.tangentsLoop p.exact (vs.map Vec2.exact) v0.exact t.val l.exact r.exact =
      ((Polygon.tangentsLoop p vs v0 t l r).1.exact, (Polygon.tangentsLoop p vs v0 t l r).2.exact) := by
  intro vs
  induction vs with
  | nil => intro _ v0 t l r _ _ _; rfl
  | cons v vs ih =>
    intro h v0 t l r h0 hl hr
    have hv := h v List.mem_cons_self
    have ih' := ih fun x hx => h x (List.mem_cons_of_mem _ hx)
    have e1 := hG.turnF hp h0 hv
    have e2 := hG.cmp hp h0 hr
    have e3 := hG.cmp hp h0 hl
    simp only [List.map_cons, Polygon.tangentsLoop, Vec2.copy_fl, gt_iff_lt, ge_iff_le, val_lt, val_le, e2, e3, val_zero,
      e1]
    split_ifs
    · rw [← e1]; exact ih' _ _ _ _ hv hl h0
    · rw [← e1]; exact ih' _ _ _ _ hv hl hr
    · rw [← e1]; exact ih' _ _ _ _ hv h0 hr
    · rw [← e1]; exact ih' _ _ _ _ hv hl hr
    · rw [← e1]; exact ih' _ _ _ _ hv hl hr

/-- Both results exact. -/
def exactTan (lr : Vec2 (Fl R) × Vec2 (Fl R)) : Vec2 F × Vec2 F := (lr.1.exact, lr.2.exact)

theorem FineGrid.ptTangents (hG : FineGrid R u B) {p : Vec2 (Fl R)} (hp : OnGrid u B p) {vs : List (Vec2 (Fl R))}
    (h : ∀ v ∈ vs, OnGrid u B v) :
    Polygon.ptTangents (vs.map Vec2.exact) p.exact = (Polygon.ptTangents vs p).map exactTan := by
  unfold Polygon.ptTangents
  simp only [pyGet_map]
  cases h1 : pyGet vs 0 with
  | error e => rfl
  | ok f =>
    cases h2 : pyGet vs (-2) with
    | error e => rfl
    | ok v0 =>
      cases h3 : pyGet vs (-1) with
      | error e => rfl
      | ok v1 =>
        have g1 := h _ (pyGet_mem h1)
        have g2 := h _ (pyGet_mem h2)
        have g3 := h _ (pyGet_mem h3)
        simp only [Except.map, bind, Except.bind, pure, Except.pure]
        rw [← hG.turnF hp g2 g3, hG.tangentsLoop hp vs h _ _ _ _ g3 g1 g1]
        rfl

theorem FineGrid.leftTanLoop (hG : FineGrid R u B) {p : Vec2 (Fl R)} (hp : OnGrid u B p) {vs : List (Vec2 (Fl R))}
    (h : ∀ v ∈ vs, OnGrid u B v) : ∀ (n : Nat) (a b : Int),
    Polygon.leftTanLoop (vs.map Vec2.exact) p.exact n a b = Polygon.leftTanLoop vs p n a b := by
  intro n
  induction n with
  | zero => intro a b; rfl
  | succ n ih =>
    intro a b
    simp only [Polygon.leftTanLoop, pyGet_map, ih]
    cases h1 : pyGet vs ((a + b) / 2 + 1) with
    | error e => rfl
    | ok v1 =>
      cases h2 : pyGet vs ((a + b) / 2) with
      | error e => rfl
      | ok v2 =>
        cases h3 : pyGet vs ((a + b) / 2 - 1) with
        | error e => rfl
        | ok v3 =>
          have g1 := h _ (pyGet_mem h1)
          have g2 := h _ (pyGet_mem h2)
          have g3 := h _ (pyGet_mem h3)
          simp only [Except.map, bind, Except.bind, pure, Except.pure, hG.ptBelow hp g1 g2, hG.ptAbove hp g3 g2]
          split
          · rfl
          · cases h4 : pyGet vs (a + 1) with
            | error e => rfl
            | ok v4 =>
              cases h5 : pyGet vs a with
              | error e => rfl
              | ok v5 =>
                have g4 := h _ (pyGet_mem h4)
                have g5 := h _ (pyGet_mem h5)
                simp only [hG.ptBelow hp g4 g5, hG.ptBelow hp g5 g2, hG.ptAbove hp g5 g2]

theorem FineGrid.rightTanLoop (hG : FineGrid R u B) {p : Vec2 (Fl R)} (hp : OnGrid u B p) {vs : List (Vec2 (Fl R))}
    (h : ∀ v ∈ vs, OnGrid u B v) : ∀ (n : Nat) (a b : Int),
    Polygon.rightTanLoop (vs.map Vec2.exact) p.exact n a b = Polygon.rightTanLoop vs p n a b := by
  intro n
  induction n with
  | zero => intro a b; rfl
  | succ n ih =>
    intro a b
    simp only [Polygon.rightTanLoop, pyGet_map, ih]
    cases h1 : pyGet vs ((a + b) / 2 + 1) with
    | error e => rfl
    | ok v1 =>
      cases h2 : pyGet vs ((a + b) / 2) with
      | error e => rfl
      | ok v2 =>
        cases h3 : pyGet vs ((a + b) / 2 - 1) with
        | error e => rfl
        | ok v3 =>
          have g1 := h _ (pyGet_mem h1)
          have g2 := h _ (pyGet_mem h2)
          have g3 := h _ (pyGet_mem h3)
          simp only [Except.map, bind, Except.bind, pure, Except.pure, hG.ptBelow hp g1 g2, hG.ptAbove hp g3 g2]
          split
          · rfl
          · cases h4 : pyGet vs (a + 1) with
            | error e => rfl
            | ok v4 =>
              cases h5 : pyGet vs a with
              | error e => rfl
              | ok v5 =>
                have g4 := h _ (pyGet_mem h4)
                have g5 := h _ (pyGet_mem h5)
                simp only [hG.ptAbove hp g4 g5, hG.ptBelow hp g5 g2, hG.ptAbove hp g5 g2]

theorem FineGrid.leftTan (hG : FineGrid R u B) {p : Vec2 (Fl R)} (hp : OnGrid u B p) {vs : List (Vec2 (Fl R))}
    (h : ∀ v ∈ vs, OnGrid u B v) : Polygon.leftTan (vs.map Vec2.exact) p.exact = Polygon.leftTan vs p := by
  unfold Polygon.leftTan
  simp only [pyGet_map, hG.leftTanLoop hp h, List.length_map]
  cases h1 : pyGet vs 0 with
  | error e => rfl
  | ok v1 =>
    cases h2 : pyGet vs (-1) with
    | error e => rfl
    | ok v2 =>
      cases h3 : pyGet vs (-2) with
      | error e => rfl
      | ok v3 =>
        have g1 := h _ (pyGet_mem h1)
        have g2 := h _ (pyGet_mem h2)
        have g3 := h _ (pyGet_mem h3)
        simp only [Except.map, bind, Except.bind, hG.ptBelow hp g1 g2, hG.ptAbove hp g3 g2]

theorem FineGrid.rightTan (hG : FineGrid R u B) {p : Vec2 (Fl R)} (hp : OnGrid u B p) {vs : List (Vec2 (Fl R))}
    (h : ∀ v ∈ vs, OnGrid u B v) : Polygon.rightTan (vs.map Vec2.exact) p.exact = Polygon.rightTan vs p := by
  unfold Polygon.rightTan
  simp only [pyGet_map, hG.rightTanLoop hp h, List.length_map]
  cases h1 : pyGet vs 0 with
  | error e => rfl
  | ok v1 =>
    cases h2 : pyGet vs (-1) with
    | error e => rfl
    | ok v2 =>
      cases h3 : pyGet vs (-2) with
      | error e => rfl
      | ok v3 =>
        have g1 := h _ (pyGet_mem h1)
        have g2 := h _ (pyGet_mem h2)
        have g3 := h _ (pyGet_mem h3)
        simp only [Except.map, bind, Except.bind, hG.ptBelow hp g1 g2, hG.ptAbove hp g3 g2]

end Planar
