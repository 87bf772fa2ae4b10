import Mathlib.Data.Sign.Basic
import Mathlib.Data.List.Forall2
import Verif.Lemmas.GridSim
import Verif.Lemmas.YTotal
import Verif.Spec.Rectilinear
/- Along horizontal and vertical edges the orientation tests have the exact sign, whatever the rounding. -/
set_option linter.unusedSectionVars false
namespace Planar
open Spec Polygon SignType

variable {F : Type} [Field F] [LinearOrder F] [IsStrictOrderedRing F] {R : Rounding F}

/-! ### Signs -/

theorem rnd_sign {x : F} (hx : R.rnd x = 0 → x = 0) : sign (R.rnd x) = sign x := by
  rcases lt_trichotomy x 0 with h | h | h
  · have h1 := R.mono _ _ h.le
    rw [R.zero] at h1
    rw [sign_neg h, sign_neg (lt_of_le_of_ne h1 fun h2 => h.ne (hx h2))]
  · rw [h, R.zero]
  · have h1 := R.mono _ _ h.le
    rw [R.zero] at h1
    rw [sign_pos h, sign_pos (lt_of_le_of_ne h1 fun h2 => h.ne' (hx h2.symm))]

/-- The product is not rounded to zero. -/
def MulSafe (a b : Fl R) : Prop := R.rnd (a.val * b.val) = 0 → a.val * b.val = 0

/-- No product with this number is rounded to zero. -/
def SafeNum (a : Fl R) : Prop := ∀ b : Fl R, MulSafe a b

theorem SafeNum.comm {a : Fl R} (h : SafeNum a) (b : Fl R) : MulSafe b a := by
  have := h b
  unfold MulSafe at *
  rwa [mul_comm] at this

theorem SafeNum.neg {a : Fl R} (h : SafeNum a) : SafeNum (-a) := by
  intro b hb
  rw [Fl.neg_val, neg_mul, R.odd, neg_eq_zero] at hb
  rw [Fl.neg_val, neg_mul, h b hb, neg_zero]

theorem safe_of_noUnderflow (hR : NoUnderflow R) (a : Fl R) : SafeNum a := fun _ h => hR _ h

theorem safe_zero : SafeNum (0 : Fl R) := fun b _ => by rw [Fl.zero_val, zero_mul]

theorem safe_of_one_le {a : Fl R} (h : 1 ≤ |a.val|) : SafeNum a := by
  intro b hb
  have pos : ∀ x : F, 0 < x → R.rnd x = x → ∀ y, x ≤ y → R.rnd y ≠ 0 := by
    intro x hx hf y hy h0
    have := R.mono _ _ hy
    rw [hf, h0] at this
    linarith
  have hab : ∀ x : F, R.rnd x = 0 → R.rnd |x| = 0 := by
    intro x hx
    rcases abs_choice x with h | h <;> rw [h]
    · exact hx
    · rw [R.odd, hx, neg_zero]
  by_contra hne
  have hb0 : b.val ≠ 0 := fun h0 => hne (by rw [h0, mul_zero])
  refine pos |b.val| (abs_pos.mpr hb0) ?_ |a.val * b.val| ?_ (hab _ hb)
  · rcases abs_choice b.val with h | h <;> rw [h]
    · exact b.fixed
    · rw [R.odd, b.fixed]
  · rw [abs_mul]
    nlinarith [abs_nonneg b.val]

/-- The float has the sign of the exact number. -/
def SameSign (a : Fl R) (x : F) : Prop := sign a.val = sign x

theorem SameSign.pos {a : Fl R} {x : F} (h : SameSign a x) : 0 < a.val ↔ 0 < x := by
  rw [← sign_eq_one_iff, ← sign_eq_one_iff, h]
theorem SameSign.neg {a : Fl R} {x : F} (h : SameSign a x) : a.val < 0 ↔ x < 0 := by
  rw [← sign_eq_neg_one_iff, ← sign_eq_neg_one_iff, h]
theorem SameSign.zero {a : Fl R} {x : F} (h : SameSign a x) : a.val = 0 ↔ x = 0 := by
  rw [← sign_eq_zero_iff (a := a.val), show sign a.val = sign x from h, sign_eq_zero_iff]
theorem SameSign.nonpos {a : Fl R} {x : F} (h : SameSign a x) : a.val ≤ 0 ↔ x ≤ 0 := by
  rw [← not_lt, ← not_lt, h.pos]
theorem SameSign.nonneg {a : Fl R} {x : F} (h : SameSign a x) : 0 ≤ a.val ↔ 0 ≤ x := by
  rw [← not_lt, ← not_lt, h.neg]
theorem SameSign.beq {a : Fl R} {x : F} (h : SameSign a x) : (a.val == 0) = (x == 0) := by
  rw [Bool.eq_iff_iff, beq_iff_eq, beq_iff_eq, h.zero]

theorem sameSign_sub (a b : Fl R) : SameSign (a - b) (a.val - b.val) :=
  rnd_sign fun h => by rw [R.gradual _ _ a.fixed b.fixed h, sub_self]

theorem SameSign.mul {a b : Fl R} {x y : F} (h1 : SameSign a x) (h2 : SameSign b y) (h : MulSafe a b) :
    SameSign (a * b) (x * y) := by
  unfold SameSign at *
  rw [Fl.mul_val, rnd_sign h, sign_mul, sign_mul, h1, h2]

/-- A difference of products of which one is zero. -/
theorem SameSign.cross {a b c d : Fl R} {x y z w : F} (h1 : SameSign a x) (h2 : SameSign b y)
    (h3 : SameSign c z) (h4 : SameSign d w) (h5 : MulSafe a b) (h6 : MulSafe c d)
    (h0 : (x = 0 ∨ y = 0) ∨ z = 0 ∨ w = 0) : SameSign (a * b - c * d) (x * y - z * w) := by
  have e1 := h1.mul h2 h5
  have e2 := h3.mul h4 h6
  have e3 := sameSign_sub (a * b) (c * d)
  unfold SameSign at e1 e2 e3 ⊢
  rw [e3]
  rcases h0 with h0 | h0
  · have : x * y = 0 := mul_eq_zero.mpr h0
    rw [this] at e1 ⊢
    rw [sign_zero, sign_eq_zero_iff] at e1
    rw [e1, zero_sub, zero_sub, Left.sign_neg, Left.sign_neg, e2]
  · have : z * w = 0 := mul_eq_zero.mpr h0
    rw [this] at e2 ⊢
    rw [sign_zero, sign_eq_zero_iff] at e2
    rw [e2, sub_zero, sub_zero, e1]

/-- An edge along which orientation tests are exact: horizontal or vertical, and products do not underflow. -/
structure Good (a b : Vec2 (Fl R)) : Prop where
  axis : Axis a b
  safeX : SafeNum (b.x - a.x)
  safeY : SafeNum (b.y - a.y)

theorem fl_sub_comm (a b : Fl R) : a - b = -(b - a) := by
  apply Fl.ext
  rw [Fl.neg_val, Fl.sub_val, Fl.sub_val, ← R.odd, neg_sub]

theorem Good.symm {a b : Vec2 (Fl R)} (h : Good a b) : Good b a := by
  refine ⟨h.axis.imp Eq.symm Eq.symm, ?_, ?_⟩
  · rw [fl_sub_comm]; exact h.safeX.neg
  · rw [fl_sub_comm]; exact h.safeY.neg

theorem good_turn {p v0 v1 : Vec2 (Fl R)} (h : Good v0 v1) :
    SameSign ((v1.x - v0.x) * (p.y - v0.y) - (p.x - v0.x) * (v1.y - v0.y))
      ((v1.exact.x - v0.exact.x) * (p.exact.y - v0.exact.y) - (p.exact.x - v0.exact.x) * (v1.exact.y - v0.exact.y)) := by
  refine SameSign.cross (sameSign_sub _ _) (sameSign_sub _ _) (sameSign_sub _ _) (sameSign_sub _ _)
    (h.safeX _) (h.safeY.comm _) ?_
  simp only [exact_x, exact_y]
  rcases h.axis with h | h
  · exact .inl (.inl (by rw [h, sub_self]))
  · exact .inr (.inr (by rw [h, sub_self]))

theorem axis_symm {K : Type} {a b : Vec2 K} (h : Axis a b) : Axis b a := h.imp Eq.symm Eq.symm

/-- All edges are good. -/
def GoodPoly (vs : List (Vec2 (Fl R))) : Prop := ∀ e ∈ edges vs, Good e.1 e.2

theorem good_of_rectilinear {vs : List (Vec2 (Fl R))} (h : Rectilinear vs) (h' : NoUnderflow R ∨ LongEdges vs) :
    GoodPoly vs := by
  intro e he
  have num : ∀ a b : Fl R, (a = b ∨ 1 ≤ |b.val - a.val|) → SafeNum (b - a) := by
    intro a b hab
    rcases hab with rfl | hab
    · have : a - a = 0 := Fl.ext (by rw [Fl.sub_val, sub_self, R.zero]; rfl)
      rw [this]; exact safe_zero
    · refine safe_of_one_le ?_
      rw [Fl.sub_val]
      rcases le_abs.mp hab with h1 | h1
      · have := R.mono _ _ h1
        rw [R.one] at this
        exact this.trans (le_abs_self _)
      · have := R.mono _ _ h1
        rw [R.one, R.odd] at this
        exact this.trans (neg_le_abs _)
  rcases h' with h' | h'
  · exact ⟨h e he, safe_of_noUnderflow h' _, safe_of_noUnderflow h' _⟩
  · exact ⟨h e he, num _ _ (h' e he).1, num _ _ (h' e he).2⟩

/-! ### The edges -/

theorem edges_map_exact (vs : List (Vec2 (Fl R))) :
    edges (vs.map Vec2.exact) = (edges vs).map fun e => (e.1.exact, e.2.exact) := by
  have key : ∀ (l : List (Vec2 (Fl R))) (a : Vec2 (Fl R)),
      edgesFrom a.exact (l.map Vec2.exact) = (edgesFrom a l).map fun e => (e.1.exact, e.2.exact) := by
    intro l
    induction l with
    | nil => intro a; rfl
    | cons b l ih => intro a; simp only [List.map_cons, edgesFrom, ih]
  unfold edges
  rw [List.getLast?_map]
  cases vs.getLast? with
  | none => rfl
  | some z => exact key vs z

theorem edgesFrom_chain {K : Type} {r : Vec2 K → Vec2 K → Prop} : ∀ (l : List (Vec2 K)) (a : Vec2 K),
    (∀ e ∈ edgesFrom a l, r e.1 e.2) → (a :: l).IsChain r := by
  intro l
  induction l with
  | nil => intro a _; exact List.IsChain.singleton a
  | cons b l ih =>
    intro a h
    exact .cons_cons (h (a, b) List.mem_cons_self) (ih b fun e he => h e (List.mem_cons_of_mem _ he))

theorem edges_chain {K : Type} {r : Vec2 K → Vec2 K → Prop} {vs : List (Vec2 K)} (h : ∀ e ∈ edges vs, r e.1 e.2) :
    vs.IsChain r ∧ ∀ a ∈ vs.getLast?, ∀ b ∈ vs.head?, r a b := by
  cases hz : vs.getLast? with
  | none => rw [List.getLast?_eq_none_iff] at hz; subst hz; exact ⟨.nil, by simp⟩
  | some z =>
    have hc : (z :: vs).IsChain r := edgesFrom_chain vs z (by unfold edges at h; rw [hz] at h; exact h)
    rw [List.isChain_cons] at hc
    exact ⟨hc.2, by rintro a ⟨⟩ b hb; exact hc.1 b hb⟩

theorem chain_edgesFrom {K : Type} {r : Vec2 K → Vec2 K → Prop} : ∀ (l : List (Vec2 K)) (a : Vec2 K), (a :: l).IsChain r →
    ∀ e ∈ edgesFrom a l, r e.1 e.2 := by
  intro l
  induction l with
  | nil => intro a _ e he; cases he
  | cons b l ih =>
    intro a h e he
    rw [List.isChain_cons_cons] at h
    rcases List.mem_cons.mp he with rfl | he
    · exact h.1
    · exact ih b h.2 e he

theorem edges_of_chain {K : Type} {r : Vec2 K → Vec2 K → Prop} {vs : List (Vec2 K)} (h1 : vs.IsChain r)
    (h2 : ∀ a ∈ vs.getLast?, ∀ b ∈ vs.head?, r a b) : ∀ e ∈ edges vs, r e.1 e.2 := by
  unfold edges
  cases hz : vs.getLast? with
  | none => intro e he; cases he
  | some z =>
    refine chain_edgesFrom vs z (List.isChain_cons.mpr ⟨?_, h1⟩)
    intro b hb
    exact h2 z hz b hb

theorem rect_nth {vs : List (Vec2 (Fl R))} (h : GoodPoly vs) (i : Nat) (hi : i < vs.length) :
    Good (nth vs ((i : Int) - 1)) (nth vs i) :=
  h (nth vs ((i : Int) - 1), nth vs i) (by
    rw [← range_map_edges]
    exact List.mem_map.mpr ⟨i, by simpa using hi, rfl⟩)

/-! ### The winding test -/

theorem axis_windStep {p v0 v1 : Vec2 (Fl R)} (h : Good v0 v1) :
    Polygon.windStep p v0 v1 = Polygon.windStep p.exact v0.exact v1.exact := by
  have e := good_turn (p := p) h
  unfold Polygon.windStep
  simp only [ge_iff_le, val_le, val_zero, e.nonneg, e.nonpos, exact_y, exact_x]
  rfl

theorem axis_windLoop (p : Vec2 (Fl R)) : ∀ (vs : List (Vec2 (Fl R))) (v0 : Vec2 (Fl R)) (w : Int),
    (∀ e ∈ edgesFrom v0 vs, Good e.1 e.2) →
    Polygon.windLoop p vs v0 w = Polygon.windLoop p.exact (vs.map Vec2.exact) v0.exact w := by
  intro vs
  induction vs with
  | nil => intro v0 w _; rfl
  | cons v vs ih =>
    intro v0 w h
    simp only [Polygon.windLoop, List.map_cons]
    rw [ih _ _ fun e he => h e (List.mem_cons_of_mem _ he), axis_windStep (h (v0, v) List.mem_cons_self)]

theorem rect_pnpWinding (p : Vec2 (Fl R)) {vs : List (Vec2 (Fl R))} (h : GoodPoly vs) :
    Polygon.pnpWinding vs p = Polygon.pnpWinding (vs.map Vec2.exact) p.exact := by
  by_cases hne : vs = []
  · subst hne; rfl
  unfold Polygon.pnpWinding
  rw [axis_windLoop p vs, nth_exact]
  rw [nth_neg_one vs hne, ← edges_ne_nil hne]; exact h

/-! ### Convexity -/

/-- Both coordinates have the exact sign, and one of them is zero. -/
def AxisVec (d : Vec2 (Fl R)) (e : Vec2 F) : Prop :=
  SameSign d.x e.x ∧ SameSign d.y e.y ∧ (e.x = 0 ∨ e.y = 0) ∧ SafeNum d.x ∧ SafeNum d.y

theorem axisVec_sub {a b : Vec2 (Fl R)} (h : Good a b) : AxisVec (b - a) (b.exact - a.exact) := by
  refine ⟨sameSign_sub _ _, sameSign_sub _ _, ?_, h.safeX, h.safeY⟩
  change b.x.val - a.x.val = 0 ∨ b.y.val - a.y.val = 0
  rcases h.axis with h | h
  · exact .inl (by rw [h, sub_self])
  · exact .inr (by rw [h, sub_self])

theorem AxisVec.lexDir {d : Vec2 (Fl R)} {e : Vec2 F} (h : AxisVec d e) : Polygon.lexDir e = Polygon.lexDir d := by
  unfold Polygon.lexDir
  simp only [gt_iff_lt, val_lt, val_zero, h.1.pos, h.1.neg, h.2.1.pos, h.2.1.neg]

theorem AxisVec.truthy {d : Vec2 (Fl R)} {e : Vec2 F} (h : AxisVec d e) : e.truthy = d.truthy := by
  unfold Vec2.truthy
  simp only [bne, val_beq, val_zero, h.1.beq, h.2.1.beq]

theorem AxisVec.cross {d d' : Vec2 (Fl R)} {e e' : Vec2 F} (h : AxisVec d e) (h' : AxisVec d' e') :
    SameSign (d.cross d') (e.cross e') := by
  refine SameSign.cross h.1 h'.2.1 h.2.1 h'.1 (h.2.2.2.1 _) (h.2.2.2.2 _) ?_
  rcases h.2.2.1 with h | h
  · exact .inl (.inl h)
  · exact .inr (.inl h)

theorem axis_classifyLoop {ds : List (Vec2 (Fl R))} {es : List (Vec2 F)}
    (h : List.Forall₂ AxisVec ds es) : ∀ (d : Vec2 (Fl R)) (e : Vec2 F) (k : Int) (dc : Nat) (sg : Int) (n : Nat),
    AxisVec d e → Polygon.classifyLoop es e k dc sg n = Polygon.classifyLoop ds d k dc sg n := by
  induction h with
  | nil => intro d e k dc sg n _; rfl
  | cons h1 _ ih =>
    intro d e k dc sg n hd
    have hc := hd.cross h1
    simp only [Polygon.classifyLoop, h1.lexDir, gt_iff_lt, val_lt, val_zero, hc.pos, hc.neg, ih _ _ _ _ _ _ h1]

theorem rect_edgeVectors {vs : List (Vec2 (Fl R))} (h : GoodPoly vs) :
    List.Forall₂ AxisVec (Polygon.edgeVectors vs) (Polygon.edgeVectors (vs.map Vec2.exact)) := by
  unfold Polygon.edgeVectors
  rw [List.length_map, List.forall₂_map_left_iff, List.forall₂_map_right_iff, List.forall₂_same]
  intro i hi
  simp only [nth_exact]
  exact axisVec_sub (rect_nth h i (by simpa using hi))

theorem rect_classifyRun {vs : List (Vec2 (Fl R))} (h : GoodPoly vs) (h2 : 2 ≤ vs.length) :
    Polygon.classifyRun (vs.map Vec2.exact) = Polygon.classifyRun vs := by
  have hl : AxisVec (nth vs (-1) - nth vs (-2)) (nth (vs.map Vec2.exact) (-1) - nth (vs.map Vec2.exact) (-2)) := by
    have := rect_nth h (vs.length - 1) (by omega)
    have hi : ∀ i j : Int, pyIndex vs.length i = pyIndex vs.length j → nth vs i = nth vs j := by
      intro i j h; unfold nth pyGet; rw [h]
    have e1 : nth vs (((vs.length - 1 : Nat) : Int) - 1) = nth vs (-2) := hi _ _ (by
      unfold pyIndex; split_ifs <;> first | omega | (simp only [Option.some.injEq]; omega))
    have e2 : nth vs ((vs.length - 1 : Nat) : Int) = nth vs (-1) := hi _ _ (by
      unfold pyIndex; split_ifs <;> first | omega | (simp only [Option.some.injEq]; omega))
    rw [e1, e2] at this
    simp only [nth_exact]
    exact axisVec_sub this
  have ht : List.Forall₂ AxisVec ((Polygon.edgeVectors vs).filter Vec2.truthy)
      ((Polygon.edgeVectors (vs.map Vec2.exact)).filter Vec2.truthy) :=
    List.rel_filter (fun d e hde => by simp only [hde.truthy]) (rect_edgeVectors h)
  unfold Polygon.classifyRun
  simp only
  rw [axis_classifyLoop ht _ _ _ _ _ _ hl, hl.lexDir]

/-! ### Simplicity -/

theorem axis_segmentsIntersect {a b c d : Vec2 (Fl R)} (h1 : Good a b) (h2 : Good c d) :
    Polygon.segmentsIntersect a.exact b.exact c.exact d.exact = Polygon.segmentsIntersect a b c d := by
  have e1 := good_turn (p := c) h1
  have e2 := good_turn (p := d) h1
  have e3 := good_turn (p := a) h2
  have e4 := good_turn (p := b) h2
  unfold Polygon.segmentsIntersect
  simp only [gt_iff_lt, val_lt, val_beq, val_zero, e1.pos, e2.pos, e3.pos, e4.pos, e1.beq, e2.beq, e3.beq, e4.beq]

theorem rect_sweepPoints {vs : List (Vec2 (Fl R))} (h : GoodPoly vs) :
    ∀ p ∈ sweepPoints vs, Good p.start p.stop := by
  intro p hp
  unfold sweepPoints pySorted at hp
  simp only at hp
  rw [List.Perm.mem_iff (List.perm_insertionSort _ _), List.mem_append] at hp
  rcases hp with hp | hp <;> obtain ⟨i, hi, rfl⟩ := List.mem_map.mp hp
  · exact rect_nth h i (by simpa using hi)
  · exact (rect_nth h i (by simpa using hi)).symm

theorem axis_sweepLoop (n : Nat) : ∀ (ps opens : List (SweepPt (Fl R))),
    (∀ p ∈ ps, Good p.start p.stop) → (∀ p ∈ opens, Good p.start p.stop) →
    Polygon.sweepLoop n (ps.map SweepPt.exact) (opens.map SweepPt.exact) = Polygon.sweepLoop n ps opens := by
  intro ps
  induction ps with
  | nil => intro opens _ _; rfl
  | cons p ps ih =>
    intro opens hps ho
    have hp := hps p List.mem_cons_self
    have hps' : ∀ q ∈ ps, Good q.start q.stop := fun q hq => hps q (List.mem_cons_of_mem _ hq)
    have h1 : (opens.map SweepPt.exact).any (fun o => o.index == p.exact.index) =
        opens.any (fun o => o.index == p.index) := by
      rw [List.any_map]; rfl
    have h2 : (opens.map SweepPt.exact).filter (fun o => o.index != p.exact.index) =
        (opens.filter fun o => o.index != p.index).map SweepPt.exact := by
      rw [List.filter_map]; rfl
    have h3 : meetsOpen n p.exact (opens.map SweepPt.exact) = meetsOpen n p opens := by
      unfold meetsOpen
      rw [List.any_map]
      clear h1 h2 ih hps hps'
      induction opens with
      | nil => rfl
      | cons o os ih =>
        have := ho o List.mem_cons_self
        rw [List.any_cons, List.any_cons, ih fun q hq => ho q (List.mem_cons_of_mem _ hq)]
        congr 1
        change ((_ && _) && Polygon.segmentsIntersect p.start.exact p.stop.exact o.start.exact o.stop.exact) = _
        rw [axis_segmentsIntersect hp this]
        rfl
    simp only [Polygon.sweepLoop, List.map_cons, h1, h2, h3]
    rw [ih _ hps' fun q hq => ho q (List.mem_of_mem_filter hq)]
    have := ih (opens ++ [p]) hps' (by
      intro q hq
      rcases List.mem_append.mp hq with hq | hq
      · exact ho q hq
      · rw [List.mem_singleton.mp hq]; exact hp)
    rw [List.map_append, List.map_singleton] at this
    rw [this]

theorem rect_checkSimple {vs : List (Vec2 (Fl R))} (h : GoodPoly vs) :
    Polygon.checkSimple (vs.map Vec2.exact) = Polygon.checkSimple vs := by
  unfold Polygon.checkSimple
  rw [sweepPoints_exact, List.length_map]
  exact axis_sweepLoop _ _ [] (rect_sweepPoints h) (by simp)

/-! ### The polyline test -/

/-- Neighbours in a polyline are on a horizontal or vertical line. -/
def AxisPair (a b : Fl R × Fl R) : Prop := Good ⟨a.2, a.1⟩ ⟨b.2, b.1⟩

theorem upward_chain {pl : List (Fl R × Fl R)} (h : pl.IsChain AxisPair) : (upward pl).IsChain AxisPair := by
  unfold upward
  split
  · split
    · rw [List.isChain_reverse]
      exact h.imp fun a b hab => Good.symm hab
    · exact h
  · exact h

theorem rectilinear_split {vs : List (Vec2 (Fl R))} (h : GoodPoly vs) :
    (splitYPolylines vs).1.IsChain AxisPair ∧ (splitYPolylines vs).2.IsChain AxisPair := by
  obtain ⟨c1, c2⟩ := edges_chain h
  set l := vs.map fun v => (v.y, v.x) with hl
  have hc : l.IsChain AxisPair := by
    rw [hl, List.isChain_map]
    exact c1.imp fun a b hab => hab
  have seg : ∀ i j : Nat, (upward ((l.take i).drop j)).IsChain AxisPair := fun i j =>
    upward_chain ((hc.take i).drop j)
  have wrap : ∀ i j : Nat, (upward (l.drop i ++ l.take j)).IsChain AxisPair := by
    intro i j
    refine upward_chain (List.isChain_append.mpr ⟨hc.drop i, hc.take j, ?_⟩)
    intro a ha b hb
    have ha' : a ∈ l.getLast? := by
      rw [List.getLast?_drop] at ha
      split at ha
      · simp at ha
      · exact ha
    have hb' : b ∈ l.head? := by
      rw [List.head?_take] at hb
      split at hb
      · simp at hb
      · exact hb
    rw [hl, List.getLast?_map, Option.mem_map] at ha'
    rw [hl, List.head?_map, Option.mem_map] at hb'
    obtain ⟨a, ha', rfl⟩ := ha'
    obtain ⟨b, hb', rfl⟩ := hb'
    exact c2 a ha' b hb'
  unfold splitYPolylines
  simp only [← hl]
  split_ifs <;> exact ⟨by first | exact seg _ _ | exact wrap _ _, by first | exact seg _ _ | exact wrap _ _⟩

theorem axis_turnPair {p : Vec2 (Fl R)} {a b : Fl R × Fl R} (h : AxisPair a b) :
    SameSign ((b.2 - a.2) * (p.y - a.1) - (p.x - a.2) * (b.1 - a.1))
      ((b.2.val - a.2.val) * (p.y.val - a.1.val) - (p.x.val - a.2.val) * (b.1.val - a.1.val)) :=
  good_turn (v0 := ⟨a.2, a.1⟩) (v1 := ⟨b.2, b.1⟩) h

/-- When the bisection of the left polyline is inside, so is that of the right one. -/
theorem split_inside {vs : List (Vec2 F)} (hne : vs ≠ []) (y : F)
    (h : ¬ (bisectRight (splitYPolylines vs).1 y = 0 ∨ bisectRight (splitYPolylines vs).1 y = (splitYPolylines vs).1.length)) :
    bisectRight (splitYPolylines vs).2 y ≠ 0 ∧ bisectRight (splitYPolylines vs).2 y < (splitYPolylines vs).2.length := by
  obtain ⟨l, r, ml, Ml, mr, Mr, h0, h1, h2, h3, h4, h5, h6, h7, h8, -⟩ := split_shape hne
  rw [h0] at h ⊢
  simp only [List.length_map] at h ⊢
  obtain ⟨b1, b2, -⟩ := bisect_chain h1 h2 (fun v hv => h7 v (by simp [hv])) (fun v hv => h8 v (by simp [hv])) y
  obtain ⟨-, -, c3⟩ := bisect_chain h3 h4 (fun v hv => by rw [h5]; exact h7 v (by simp [hv]))
    (fun v hv => by rw [h6]; exact h8 v (by simp [hv])) y
  have g1 : ml.y < y := not_le.mp fun hc => h (.inl (b1 hc))
  have g2 : y ≤ Ml.y := not_lt.mp fun hc => h (.inr (b2 hc))
  obtain ⟨j, c, d, hj, hc, hd, -, -⟩ := c3 (by rw [h5]; exact g1) (by rw [h6]; exact g2)
  have := (List.getElem?_eq_some_iff.mp hd).1
  omega

theorem pyGet_adj {pl : List (Fl R × Fl R)} (hc : pl.IsChain AxisPair) {i : Nat} (h0 : i ≠ 0) (h1 : i < pl.length) :
    ∃ a b, pyGet pl ((i : Int) - 1) = .ok a ∧ pyGet pl (i : Int) = .ok b ∧ AxisPair a b := by
  obtain ⟨k, rfl⟩ := Nat.exists_eq_succ_of_ne_zero h0
  have hk : ((k.succ : Nat) : Int) - 1 = (k : Int) := by push_cast; ring
  refine ⟨pl[k], pl[k + 1], ?_, ?_, List.isChain_iff_getElem.mp hc k h1⟩
  · rw [hk]
    have : pyIndex pl.length (k : Int) = some k := by simp [pyIndex]; omega
    simp only [pyGet, this, List.getElem?_eq_getElem (show k < pl.length by omega)]
  · have : pyIndex pl.length ((k.succ : Nat) : Int) = some (k + 1) := by
      unfold pyIndex
      rw [if_pos (by omega), if_pos (by omega)]; simp
    simp only [pyGet, this, List.getElem?_eq_getElem h1]

theorem rect_pnpYMonotone {p : Vec2 (Fl R)} {vs : List (Vec2 (Fl R))} (h : GoodPoly vs) (hne : vs ≠ []) :
    Polygon.pnpYMonotone (splitYPolylines (vs.map Vec2.exact)) p.exact = Polygon.pnpYMonotone (splitYPolylines vs) p := by
  have hin := split_inside (vs := vs.map Vec2.exact) (by simpa using hne) p.exact.y
  rw [splitYPolylines_exact] at hin ⊢
  obtain ⟨c1, c2⟩ := rectilinear_split h
  generalize splitYPolylines vs = pls at hin c1 c2 ⊢
  simp only [exact_y, bisectRight_exact, List.length_map] at hin
  unfold Polygon.pnpYMonotone
  simp only [exact_y, bisectRight_exact, List.length_map, pyGet_map]
  split
  · rfl
  · rename_i hcond
    simp only [Bool.or_eq_true, decide_eq_true_eq] at hcond
    have hle : bisectRight pls.1 p.y ≤ pls.1.length := by
      have := (bisect_spec (pls.1.map exactPair) p.y.val).1
      rwa [bisectRight_exact, List.length_map] at this
    obtain ⟨a, b, ha, hb, hab⟩ := pyGet_adj c1 (i := bisectRight pls.1 p.y) (fun h => hcond (.inl h))
      (lt_of_le_of_ne hle fun h => hcond (.inr h))
    obtain ⟨i1, i2⟩ := hin hcond
    obtain ⟨c, d, hc, hd, hcd⟩ := pyGet_adj c2 i1 i2
    have e1 := axis_turnPair (p := p) hab
    have e2 := axis_turnPair (p := p) hcd
    simp only [ha, hb, hc, hd, Except.map, bind, Except.bind, exactPair, gt_iff_lt, val_lt, val_zero, exact_x, pure,
      Except.pure, e1.pos, e2.pos]

end Planar
