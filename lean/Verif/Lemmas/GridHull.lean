import Verif.Lemmas.GridSim
/- On a grid: the adaptive quick hull. -/
set_option linter.unusedSectionVars false
namespace Planar
open Spec Polygon Hull

variable {F : Type} [Field F] [LinearOrder F] [IsStrictOrderedRing F] {R : Rounding F} {u : F} {B : ℤ}

/-- What the hull needs of a grid: also products of four differences are exact, the inverse of the largest of them is not
rounded to zero, nor is its product with the smallest of them. -/
structure HullGrid (R : Rounding F) (u : F) (B : ℤ) : Prop where
  one : Exact R (128 * B * B * B * B) u
  two : Exact R (128 * B * B * B * B) (u * u)
  four : Exact R (128 * B * B * B * B) (u * u * (u * u))
  pos : 0 < B
  up : 0 < u
  inv : 0 < R.rnd (1 / (128 * B * B * B * B * (u * u * (u * u))))
  small : 0 < R.rnd (u * u * (u * u) * R.rnd (1 / (128 * B * B * B * B * (u * u * (u * u)))))

theorem Exact.mono {N M : ℤ} {w : F} (h : Exact R N w) (hM : M ≤ N) : Exact R M w := fun n hn => h n (hn.trans hM)

theorem HullGrid.fine (hG : HullGrid R u B) : FineGrid R u B := by
  have h := hG.pos
  have : 8 * B * B ≤ 128 * B * B * B * B := by nlinarith [mul_pos h h, mul_pos (mul_pos h h) h, mul_pos (mul_pos h h) (mul_pos h h)]
  exact ⟨hG.one.mono this, hG.two.mono this, h⟩

theorem FineGrid.dot (hG : FineGrid R u B) {v w : Vec2 (Fl R)} (hv : OnGrid u (2 * B) v) (hw : OnGrid u (2 * B) w) :
    (v.dot w).val = v.exact.dot w.exact ∧ Grid (u * u) (8 * B * B) (v.dot w) := by
  have h := hG.pos
  obtain ⟨h1, h2⟩ := Grid.mul hG.two hv.1 hw.1 (by omega) (by nlinarith)
  obtain ⟨h3, h4⟩ := Grid.mul hG.two hv.2 hw.2 (by omega) (by nlinarith)
  obtain ⟨h5, h6⟩ := Grid.add hG.two h2 h4 (by nlinarith)
  refine ⟨?_, h6.mono (by nlinarith)⟩
  change (v.x * w.x + v.y * w.y).val = _
  rw [h5, h1, h3]; rfl

theorem HullGrid.cross' (hG : HullGrid R u B) {a b c d : Fl R} (ha : Grid (u * u) (8 * B * B) a)
    (hb : Grid (u * u) (8 * B * B) b) (hc : Grid (u * u) (8 * B * B) c) (hd : Grid (u * u) (8 * B * B) d) :
    (a * b - c * d).val = a.val * b.val - c.val * d.val ∧
      Grid (u * u * (u * u)) (128 * B * B * B * B) (a * b - c * d) := by
  have h := hG.pos
  have h2 : 0 < B * B := mul_pos h h
  have h4 : 0 < B * B * (B * B) := mul_pos h2 h2
  obtain ⟨h1, h2⟩ := Grid.mul hG.four ha hb (by nlinarith) (by nlinarith)
  obtain ⟨h3, h4⟩ := Grid.mul hG.four hc hd (by nlinarith) (by nlinarith)
  obtain ⟨h5, h6⟩ := Grid.sub hG.four h2 h4 (by nlinarith)
  exact ⟨by rw [h5, h1, h3], h6.mono (by nlinarith)⟩

theorem HullGrid.cross (hG : HullGrid R u B) {a b c d : Fl R} (ha : Grid (u * u) (8 * B * B) a)
    (hb : Grid (u * u) (8 * B * B) b) (hc : Grid (u * u) (8 * B * B) c) (hd : Grid (u * u) (8 * B * B) d) :
    (a * b - c * d).val = a.val * b.val - c.val * d.val := (hG.cross' ha hb hc hd).1

/-- Numbers on a grid: zero or at least one step, and at most the bound. -/
theorem Grid.bounds {w : F} {N : ℤ} {a : Fl R} (hw : 0 < w) (h : Grid w N a) (h0 : a.val ≠ 0) : w ≤ |a.val| ∧ |a.val| ≤ N * w := by
  obtain ⟨n, hn, ha⟩ := h
  have hn0 : n ≠ 0 := by rintro rfl; rw [ha] at h0; simp at h0
  have h1 : (1 : F) ≤ |(n : F)| := by exact_mod_cast Int.one_le_abs hn0
  have h2 : |(n : F)| ≤ N := by exact_mod_cast hn
  rw [ha, abs_mul, abs_of_pos hw]
  exact ⟨le_mul_of_one_le_left hw.le h1, mul_le_mul_of_nonneg_right h2 hw.le⟩

theorem HullGrid.inv_bounds (hG : HullGrid R u B) {d : Fl R} (hd : 0 < d.val)
    (gd : Grid (u * u * (u * u)) (128 * B * B * B * B) d) :
    1 / (128 * B * B * B * B * (u * u * (u * u))) ≤ 1 / d.val ∧ 1 / d.val ≤ 1 / (u * u * (u * u)) := by
  have hu := hG.up
  obtain ⟨b1, b2⟩ := gd.bounds (by positivity) hd.ne'
  rw [abs_of_pos hd] at b1 b2
  push_cast at b2
  have : 0 < u * u * (u * u) := by positivity
  exact ⟨one_div_le_one_div_of_le hd b2, one_div_le_one_div_of_le this b1⟩

/-- The sign of a product with the rounded inverse of a positive number. -/
theorem HullGrid.sign (hG : HullGrid R u B) {n d : Fl R} (gn : Grid (u * u * (u * u)) (128 * B * B * B * B) n)
    (gd : Grid (u * u * (u * u)) (128 * B * B * B * B) d) (hd : 0 < d.val) :
    n * (1 / d) < 0 ↔ n.val * (1 / d.val) < 0 := by
  have hu := hG.up
  have hu4 : 0 < u * u * (u * u) := by positivity
  have hmono := R.mono _ _ (hG.inv_bounds hd gd).1
  have hinv : 0 < R.rnd (1 / d.val) := hG.inv.trans_le hmono
  have hd' : 0 < 1 / d.val := by positivity
  have e : (n * (1 / d)).val = R.rnd (n.val * R.rnd (1 / d.val)) := rfl
  rw [val_lt, e, val_zero]
  have key : R.rnd (n.val * R.rnd (1 / d.val)) < 0 ↔ n.val < 0 := by
    constructor
    · intro h
      by_contra hc
      have := R.mono 0 _ (mul_nonneg (not_lt.mp hc) hinv.le)
      rw [R.zero] at this
      linarith
    · intro h
      have h1 := (gn.bounds hu4 h.ne).1
      rw [abs_of_neg h] at h1
      have h2 : u * u * (u * u) * R.rnd (1 / (128 * B * B * B * B * (u * u * (u * u)))) ≤ -(n.val * R.rnd (1 / d.val)) := by
        rw [← neg_mul]
        exact mul_le_mul h1 hmono hG.inv.le (by linarith)
      have h3 := R.mono _ _ h2
      rw [R.odd] at h3
      have := hG.small
      linarith
  rw [key]
  constructor
  · intro h; exact mul_neg_of_neg_of_pos h hd'
  · intro h
    by_contra hc
    have := mul_nonneg (not_lt.mp hc) hd'.le
    linarith

theorem FineGrid.lineOrder (hG : FineGrid R u B) {a b p : Vec2 (Fl R)} (ha : OnGrid u B a) (hb : OnGrid u B b)
    (hp : OnGrid u B p) : (Hull.lineOrder a b p).val = Hull.lineOrder a.exact b.exact p.exact := by
  have h1 := hG.vsub hb ha
  have h2 := hG.vsub hp ha
  have := (hG.dot h1.2 h2.2).1
  rw [h1.1, h2.1] at this
  exact this

theorem FineGrid.popStack (hG : FineGrid R u B) {p : Vec2 (Fl R)} (hp : OnGrid u B p) (st : List (Vec2 (Fl R)))
    (h : ∀ v ∈ st, OnGrid u B v) : Hull.popStack p.exact (st.map Vec2.exact) = (Hull.popStack p st).map Vec2.exact := by
  induction st with
  | nil => rfl
  | cons v1 st ih =>
    cases st with
    | nil => rfl
    | cons v0 rest =>
      have h1 := h v1 (by simp)
      have h0 := h v0 (by simp)
      have ih' := ih fun v hv => h v (List.mem_cons_of_mem _ hv)
      simp only [List.map_cons, Hull.popStack, ge_iff_le, val_le, hG.turn hp h0 h1, val_zero] at ih' ⊢
      split
      · exact ih'
      · rfl

theorem popStack_mem {K : Type} [Add K] [Sub K] [Mul K] [Zero K] [LT K] [LE K] [DecidableLE K] {p v : Vec2 K} :
    ∀ {st : List (Vec2 K)}, v ∈ Hull.popStack p st → v ∈ st := by
  intro st
  induction st with
  | nil => intro h; exact h
  | cons v1 st ih =>
    cases st with
    | nil => intro h; exact h
    | cons v0 rest =>
      intro h
      simp only [Hull.popStack] at h
      split at h
      · exact List.mem_cons_of_mem _ (ih h)
      · exact h

theorem pySorted_map_mem {α β : Type} (f : α → β) (lt : α → α → Bool) (lt' : β → β → Bool) (l : List α)
    (h : ∀ a ∈ l, ∀ b ∈ l, lt' (f a) (f b) = lt a b) : pySorted lt' (l.map f) = (pySorted lt l).map f := by
  unfold pySorted
  have key : ∀ (a : α) (l : List α), (∀ b ∈ l, lt' (f b) (f a) = lt b a) →
      (l.map f).orderedInsert (fun a b => lt' b a = false) (f a) =
      (l.orderedInsert (fun a b => lt b a = false) a).map f := by
    intro a l
    induction l with
    | nil => intro _; rfl
    | cons b l ih =>
      intro h
      simp only [List.map_cons, List.orderedInsert, h b List.mem_cons_self]
      split
      · rfl
      · rw [List.map_cons, ← ih fun c hc => h c (List.mem_cons_of_mem _ hc)]
  induction l with
  | nil => rfl
  | cons a l ih =>
    simp only [List.map_cons, List.insertionSort_cons]
    rw [ih fun b hb c hc => h b (List.mem_cons_of_mem _ hb) c (List.mem_cons_of_mem _ hc), key]
    intro b hb
    rw [List.Perm.mem_iff (List.perm_insertionSort _ _)] at hb
    exact h b (List.mem_cons_of_mem _ hb) a List.mem_cons_self

theorem FineGrid.sortPoints (hG : FineGrid R u B) {ps : List (Vec2 (Fl R))} {a b : Vec2 (Fl R)}
    (h : ∀ v ∈ ps, OnGrid u B v) (ha : OnGrid u B a) (hb : OnGrid u B b) :
    Hull.sortPoints (ps.map Vec2.exact) a.exact b.exact = (Hull.sortPoints ps a b).map Vec2.exact := by
  unfold Hull.sortPoints
  rw [pySorted_map_mem Vec2.exact (fun x y => decide (Hull.lineOrder a b x < Hull.lineOrder a b y))]
  · have key : ∀ (l st : List (Vec2 (Fl R))), (∀ v ∈ l, OnGrid u B v) → (∀ v ∈ st, OnGrid u B v) →
        (l.map Vec2.exact).foldl (fun st p => p :: Hull.popStack p st) (st.map Vec2.exact) =
        (l.foldl (fun st p => p :: Hull.popStack p st) st).map Vec2.exact := by
      intro l
      induction l with
      | nil => intro st _ _; rfl
      | cons p l ih =>
        intro st hl hst
        have hp := hl p List.mem_cons_self
        simp only [List.map_cons, List.foldl_cons]
        rw [hG.popStack hp st hst, ← List.map_cons, ih _ (fun v hv => hl v (List.mem_cons_of_mem _ hv))]
        intro v hv
        rcases List.mem_cons.mp hv with rfl | hv
        · exact hp
        · exact hst v (popStack_mem hv)
    have e := key (pySorted (fun x y => decide (Hull.lineOrder a b x < Hull.lineOrder a b y)) ps ++ [b]) [a] ?_ ?_
    · rw [List.map_append, List.map_singleton, List.map_singleton] at e
      simp only
      rw [e, ← List.map_tail, List.map_reverse]
    · intro v hv
      rcases List.mem_append.mp hv with hv | hv
      · unfold pySorted at hv
        rw [List.Perm.mem_iff (List.perm_insertionSort _ _)] at hv
        exact h v hv
      · rw [List.mem_singleton.mp hv]; exact hb
    · intro v hv; rw [List.mem_singleton.mp hv]; exact ha
  · intro x hx y hy
    rw [← hG.lineOrder ha hb (h x hx), ← hG.lineOrder ha hb (h y hy)]
    simp only [val_lt]

theorem FineGrid.furthest (hG : FineGrid R u B) {a b : Vec2 (Fl R)} (ha : OnGrid u B a) (hb : OnGrid u B b) :
    ∀ (ps : List (Vec2 (Fl R))), (∀ v ∈ ps, OnGrid u B v) → ∀ (m : Fl R) (q : Option (Vec2 (Fl R))),
    (ps.map Vec2.exact).foldl (furthestStep a.exact (b.exact.x - a.exact.x) (b.exact.y - a.exact.y)) (m.val, q.map Vec2.exact) =
      ((ps.foldl (furthestStep a (b.x - a.x) (b.y - a.y)) (m, q)).1.val,
       (ps.foldl (furthestStep a (b.x - a.x) (b.y - a.y)) (m, q)).2.map Vec2.exact) := by
  intro ps
  induction ps with
  | nil => intro _ m q; rfl
  | cons p ps ih =>
    intro h m q
    have hp := h p List.mem_cons_self
    have ih' := ih fun v hv => h v (List.mem_cons_of_mem _ hv)
    have e := hG.turn hp ha hb
    have hs : furthestStep a.exact (b.exact.x - a.exact.x) (b.exact.y - a.exact.y) (m.val, q.map Vec2.exact) p.exact =
        ((furthestStep a (b.x - a.x) (b.y - a.y) (m, q) p).1.val,
         (furthestStep a (b.x - a.x) (b.y - a.y) (m, q) p).2.map Vec2.exact) := by
      unfold furthestStep
      simp only [gt_iff_lt, val_lt, ← e]
      split <;> rfl
    rw [List.map_cons, List.foldl_cons, List.foldl_cons, hs, ih']

theorem furthest_mem {K : Type} [Add K] [Sub K] [Mul K] [Zero K] [LT K] [DecidableLT K] {a q : Vec2 K} {dx dy : K} :
    ∀ (ps : List (Vec2 K)) (m : K) (o : Option (Vec2 K)), (ps.foldl (furthestStep a dx dy) (m, o)).2 = some q →
    q ∈ ps ∨ o = some q := by
  intro ps
  induction ps with
  | nil => intro m o h; exact .inr h
  | cons p ps ih =>
    intro m o h
    rw [List.foldl_cons] at h
    unfold furthestStep at h
    simp only at h
    split at h
    · rcases ih _ _ h with h | h
      · exact .inl (List.mem_cons_of_mem _ h)
      · cases h; exact .inl List.mem_cons_self
    · rcases ih _ _ h with h | h
      · exact .inl (List.mem_cons_of_mem _ h)
      · exact .inr h

theorem HullGrid.splitPoints (hG : HullGrid R u B) {ps : List (Vec2 (Fl R))} {P a b : Vec2 (Fl R)}
    (h : ∀ v ∈ ps, OnGrid u B v) (hP : OnGrid u B P) (ha : OnGrid u B a) (hb : OnGrid u B b) :
    Hull.splitPoints (ps.map Vec2.exact) P.exact a.exact b.exact =
      ((Hull.splitPoints ps P a b).1.map Vec2.exact, (Hull.splitPoints ps P a b).2.map Vec2.exact) := by
  have hF := hG.fine
  obtain ⟨e0, g0⟩ := hF.vsub ha hP
  obtain ⟨e1, g1⟩ := hF.vsub hb hP
  obtain ⟨d00, g00⟩ := hF.dot g0 g0
  obtain ⟨d01, g01⟩ := hF.dot g0 g1
  obtain ⟨d11, g11⟩ := hF.dot g1 g1
  obtain ⟨hden, gden⟩ := hG.cross' g00 g11 g01 g01
  rw [d00, d01, d11, e0, e1] at hden
  have hden' : ((a - P).length2 * (b - P).length2 - (a - P).dot (b - P) * (a - P).dot (b - P)).val =
      (a.exact - P.exact).length2 * (b.exact - P.exact).length2 -
        (a.exact - P.exact).dot (b.exact - P.exact) * (a.exact - P.exact).dot (b.exact - P.exact) := hden
  unfold Hull.splitPoints
  simp only [val_beq, hden', val_zero]
  split
  · rfl
  · rename_i hne
    have hne' : (a.exact - P.exact).length2 * (b.exact - P.exact).length2 -
        (a.exact - P.exact).dot (b.exact - P.exact) * (a.exact - P.exact).dot (b.exact - P.exact) ≠ 0 := by
      simpa using hne
    have hpos : 0 < ((a - P).length2 * (b - P).length2 - (a - P).dot (b - P) * (a - P).dot (b - P)).val := by
      rw [hden']
      refine lt_of_le_of_ne ?_ hne'.symm
      have : (a.exact - P.exact).length2 * (b.exact - P.exact).length2 -
        (a.exact - P.exact).dot (b.exact - P.exact) * (a.exact - P.exact).dot (b.exact - P.exact) =
        ((a.exact - P.exact).x * (b.exact - P.exact).y - (a.exact - P.exact).y * (b.exact - P.exact).x) ^ 2 := by
        simp only [Vec2.length2, Vec2.dot]; ring
      rw [this]; exact sq_nonneg _
    have num : ∀ p ∈ ps, ∀ x y : Vec2 (Fl R), ∀ c d : Fl R, OnGrid u (2 * B) x → OnGrid u (2 * B) y →
        Grid (u * u) (8 * B * B) c → Grid (u * u) (8 * B * B) d →
        (c * x.dot (p - P) - d * y.dot (p - P)).val =
          c.val * x.exact.dot (p.exact - P.exact) - d.val * y.exact.dot (p.exact - P.exact) ∧
        Grid (u * u * (u * u)) (128 * B * B * B * B) (c * x.dot (p - P) - d * y.dot (p - P)) := by
      intro p hp x y c d hx hy hc hd
      obtain ⟨e2, g2⟩ := hF.vsub (h p hp) hP
      obtain ⟨d1, k1⟩ := hF.dot hx g2
      obtain ⟨d2, k2⟩ := hF.dot hy g2
      obtain ⟨k3, k4⟩ := hG.cross' hc k1 hd k2
      exact ⟨by rw [k3, d1, d2, e2], k4⟩
    have hV : ∀ p ∈ ps, (((a - P).length2 * (b - P).dot (p - P) - (a - P).dot (b - P) * (a - P).dot (p - P)) *
        (1 / ((a - P).length2 * (b - P).length2 - (a - P).dot (b - P) * (a - P).dot (b - P))) < 0 ↔
        ((a.exact - P.exact).length2 * (b.exact - P.exact).dot (p.exact - P.exact) -
          (a.exact - P.exact).dot (b.exact - P.exact) * (a.exact - P.exact).dot (p.exact - P.exact)) *
        (1 / ((a.exact - P.exact).length2 * (b.exact - P.exact).length2 -
          (a.exact - P.exact).dot (b.exact - P.exact) * (a.exact - P.exact).dot (b.exact - P.exact))) < 0) := by
      intro p hp
      obtain ⟨this, gnum⟩ := num p hp (b - P) (a - P) ((a - P).dot (a - P)) ((a - P).dot (b - P)) g1 g0 g00 g01
      rw [d00, d01, e0, e1] at this
      refine (hG.sign gnum gden hpos).trans ?_
      rw [this, hden]
      rfl
    have hU : ∀ p ∈ ps, (((b - P).length2 * (a - P).dot (p - P) - (a - P).dot (b - P) * (b - P).dot (p - P)) *
        (1 / ((a - P).length2 * (b - P).length2 - (a - P).dot (b - P) * (a - P).dot (b - P))) < 0 ↔
        ((b.exact - P.exact).length2 * (a.exact - P.exact).dot (p.exact - P.exact) -
          (a.exact - P.exact).dot (b.exact - P.exact) * (b.exact - P.exact).dot (p.exact - P.exact)) *
        (1 / ((a.exact - P.exact).length2 * (b.exact - P.exact).length2 -
          (a.exact - P.exact).dot (b.exact - P.exact) * (a.exact - P.exact).dot (b.exact - P.exact))) < 0) := by
      intro p hp
      obtain ⟨this, gnum⟩ := num p hp (a - P) (b - P) ((b - P).dot (b - P)) ((a - P).dot (b - P)) g0 g1 g11 g01
      rw [d11, d01, e0, e1] at this
      refine (hG.sign gnum gden hpos).trans ?_
      rw [this, hden]
      rfl
    have filt : ∀ (f : Vec2 F → Bool) (g : Vec2 (Fl R) → Bool), (∀ p ∈ ps, f p.exact = g p) →
        (ps.map Vec2.exact).filter f = (ps.filter g).map Vec2.exact := by
      intro f g hfg
      rw [List.filter_map]
      congr 1
      exact List.filter_congr fun p hp => hfg p hp
    refine Prod.ext (filt _ _ ?_) (filt _ _ ?_)
    · intro p hp
      rw [decide_eq_decide]
      exact (hV p hp).symm
    · intro p hp
      rw [decide_eq_decide.mpr (hV p hp), decide_eq_decide.mpr (hU p hp)]

theorem splitPoints_mem {K : Type} [Add K] [Sub K] [Mul K] [Div K] [Neg K] [Zero K] [One K] [BEq K] [LT K] [LE K]
    [DecidableLT K] [DecidableLE K] {ps : List (Vec2 K)} {P a b v : Vec2 K}
    (h : v ∈ (Hull.splitPoints ps P a b).1 ∨ v ∈ (Hull.splitPoints ps P a b).2) : v ∈ ps := by
  unfold Hull.splitPoints at h
  simp only at h
  split at h
  · simp at h
  · rcases h with h | h <;> exact List.mem_of_mem_filter h

/-- One side of a partition. -/
def sideCall {K : Type} [Add K] [Sub K] [Mul K] [Div K] [Neg K] [Zero K] [One K] [BEq K] [LT K] [LE K]
    [DecidableLT K] [DecidableLE K] (mx : Nat) (pts : List (Vec2 K)) (p0 p1 : Vec2 K) : Py (List (Vec2 K)) :=
  if pts.length ≤ 1 then .ok (p0 :: pts)
  else if pts.length ≤ mx ∧ 1 < pts.length then Hull.partitionPoints pts p0 p1
  else .ok (Hull.sortPoints pts p0 p1)

theorem partition_unfold {K : Type} [Add K] [Sub K] [Mul K] [Div K] [Neg K] [Zero K] [One K] [BEq K] [LT K] [LE K]
    [DecidableLT K] [DecidableLE K] (pts : List (Vec2 K)) (p0 p1 : Vec2 K) : Hull.partitionPoints pts p0 p1 =
    match (pts.foldl (furthestStep p0 (p1.x - p0.x) (p1.y - p0.y)) (-1, none)).2 with
    | none => .error .nameError
    | some q =>
      (sideCall ((pts.length - (Hull.splitPoints pts q.copy p0 p1).1.length -
          (Hull.splitPoints pts q.copy p0 p1).2.length) * 4) (Hull.splitPoints pts q.copy p0 p1).1 p0 q.copy).bind fun h1 =>
      (sideCall ((pts.length - (Hull.splitPoints pts q.copy p0 p1).1.length -
          (Hull.splitPoints pts q.copy p0 p1).2.length) * 4) (Hull.splitPoints pts q.copy p0 p1).2 q.copy p1).bind fun h2 =>
      .ok (h1 ++ h2) := by
  rw [Hull.partitionPoints]
  rcases (pts.foldl (furthestStep p0 (p1.x - p0.x) (p1.y - p0.y)) (-1, none)).2 with _ | P
  · rfl
  · simp only [sideCall]
    generalize Hull.splitPoints pts P.copy p0 p1 = lr
    by_cases c1 : lr.1.length ≤ 1 <;> by_cases c2 : lr.2.length ≤ 1 <;>
      by_cases c3 : lr.1.length ≤ (pts.length - lr.1.length - lr.2.length) * 4 ∧ 1 < lr.1.length <;>
      by_cases c4 : lr.2.length ≤ (pts.length - lr.1.length - lr.2.length) * 4 ∧ 1 < lr.2.length <;>
      simp only [c1, c2, c3, c4, and_self, if_true, if_false, dite_true, dite_false, dif_pos, dif_neg, not_false_eq_true] <;>
      rfl

theorem HullGrid.partitionPoints (hG : HullGrid R u B) (ps : List (Vec2 (Fl R))) (a b : Vec2 (Fl R))
    (h : ∀ v ∈ ps, OnGrid u B v) (ha : OnGrid u B a) (hb : OnGrid u B b) :
    Hull.partitionPoints (ps.map Vec2.exact) a.exact b.exact = (Hull.partitionPoints ps a b).map (List.map Vec2.exact) := by
  induction hn : ps.length using Nat.strong_induction_on generalizing ps a b with
  | _ n ih =>
  subst hn
  have hF := hG.fine
  have hf := hF.furthest ha hb ps h (-1) none
  have hm1 : ((-1 : Fl R)).val = -1 := rfl
  rw [hm1, Option.map_none] at hf
  rw [partition_unfold, partition_unfold, hf]
  cases hq : (ps.foldl (furthestStep a (b.x - a.x) (b.y - a.y)) (-1, none)).2 with
  | none => rfl
  | some q =>
    have hqm : q ∈ ps := by
      rcases furthest_mem _ _ _ hq with h | h
      · exact h
      · cases h
    have hP := h q hqm
    have hcopy : q.exact.copy = q.exact := Vec2.copy_eq q.exact
    simp only [Option.map_some, hcopy, Vec2.copy_fl, hG.splitPoints h hP ha hb, List.length_map]
    have g1 : ∀ v ∈ (Hull.splitPoints ps q a b).1, OnGrid u B v := fun v hv => h v (splitPoints_mem (.inl hv))
    have g2 : ∀ v ∈ (Hull.splitPoints ps q a b).2, OnGrid u B v := fun v hv => h v (splitPoints_mem (.inr hv))
    set l := (Hull.splitPoints ps q a b).1
    set r := (Hull.splitPoints ps q a b).2
    have side : ∀ (s : List (Vec2 (Fl R))) (c d : Vec2 (Fl R)), (∀ v ∈ s, OnGrid u B v) → OnGrid u B c → OnGrid u B d →
        (s.length ≤ (ps.length - l.length - r.length) * 4 → 1 < s.length → s.length < ps.length) →
        sideCall ((ps.length - l.length - r.length) * 4) (s.map Vec2.exact) c.exact d.exact =
        (sideCall ((ps.length - l.length - r.length) * 4) s c d).map (List.map Vec2.exact) := by
      intro s c d hs hc hd hlt
      unfold sideCall
      rw [List.length_map]
      split_ifs with c1 c2
      · rfl
      · exact ih s.length (hlt c2.1 c2.2) s c d hs hc hd rfl
      · rw [hF.sortPoints hs hc hd]; rfl
    rw [side l a q g1 ha hP (by omega), side r q b g2 hP hb (by omega)]
    generalize sideCall ((ps.length - l.length - r.length) * 4) l a q = x
    generalize sideCall ((ps.length - l.length - r.length) * 4) r q b = y
    cases x with
    | error e => rfl
    | ok x =>
      cases y with
      | error e => rfl
      | ok y => simp only [Except.map, Except.bind, List.map_append]

theorem extremes_exact (p : Vec2 (Fl R)) (ps : List (Vec2 (Fl R))) :
    Hull.extremes p.exact (ps.map Vec2.exact) = ((Hull.extremes p ps).1.exact, (Hull.extremes p ps).2.exact) := by
  unfold Hull.extremes
  have key : ∀ (ps : List (Vec2 (Fl R))) (a b : Vec2 (Fl R)),
      (ps.map Vec2.exact).foldl (fun acc q => if q.x < acc.1.x then (q, acc.2) else if q.x > acc.2.x then (acc.1, q) else acc)
        (a.exact, b.exact) =
      ((ps.foldl (fun acc q => if q.x < acc.1.x then (q, acc.2) else if q.x > acc.2.x then (acc.1, q) else acc) (a, b)).1.exact,
       (ps.foldl (fun acc q => if q.x < acc.1.x then (q, acc.2) else if q.x > acc.2.x then (acc.1, q) else acc) (a, b)).2.exact) := by
    intro ps
    induction ps with
    | nil => intro a b; rfl
    | cons q ps ih =>
      intro a b
      simp only [List.map_cons, List.foldl_cons, exact_x, gt_iff_lt, val_lt] at ih ⊢
      by_cases c1 : q.x.val < a.x.val
      · simp only [c1, if_true]; exact ih _ _
      · by_cases c2 : b.x.val < q.x.val
        · simp only [c1, c2, if_true, if_false]; exact ih _ _
        · simp only [c1, c2, if_false]; exact ih _ _
  exact key ps p p

theorem extremes_mem {K : Type} [LT K] [DecidableLT K] (p : Vec2 K) (ps : List (Vec2 K)) :
    (Hull.extremes p ps).1 ∈ p :: ps ∧ (Hull.extremes p ps).2 ∈ p :: ps := by
  unfold Hull.extremes
  have key : ∀ (ps : List (Vec2 K)) (acc : Vec2 K × Vec2 K),
      ((ps.foldl (fun acc q => if q.x < acc.1.x then (q, acc.2) else if q.x > acc.2.x then (acc.1, q) else acc) acc).1 = acc.1 ∨
        (ps.foldl (fun acc q => if q.x < acc.1.x then (q, acc.2) else if q.x > acc.2.x then (acc.1, q) else acc) acc).1 ∈ ps) ∧
      ((ps.foldl (fun acc q => if q.x < acc.1.x then (q, acc.2) else if q.x > acc.2.x then (acc.1, q) else acc) acc).2 = acc.2 ∨
        (ps.foldl (fun acc q => if q.x < acc.1.x then (q, acc.2) else if q.x > acc.2.x then (acc.1, q) else acc) acc).2 ∈ ps) := by
    intro ps
    induction ps with
    | nil => intro acc; exact ⟨.inl rfl, .inl rfl⟩
    | cons q ps ih =>
      intro acc
      rw [List.foldl_cons]
      split_ifs with h1 h2
      · obtain ⟨a, b⟩ := ih (q, acc.2)
        exact ⟨.inr (List.mem_cons.mpr a), b.imp id (List.mem_cons_of_mem _)⟩
      · obtain ⟨a, b⟩ := ih (acc.1, q)
        exact ⟨a.imp id (List.mem_cons_of_mem _), .inr (List.mem_cons.mpr b)⟩
      · obtain ⟨a, b⟩ := ih acc
        exact ⟨a.imp id (List.mem_cons_of_mem _), b.imp id (List.mem_cons_of_mem _)⟩
  obtain ⟨a, b⟩ := key ps (p, p)
  exact ⟨List.mem_cons.mpr a, List.mem_cons.mpr b⟩

theorem eraseDups_exact (l : List (Vec2 (Fl R))) : (l.map Vec2.exact).eraseDups = l.eraseDups.map Vec2.exact := by
  induction hn : l.length using Nat.strong_induction_on generalizing l with
  | _ n ih =>
  subst hn
  cases l with
  | nil => rfl
  | cons a l =>
    rw [List.map_cons, List.eraseDups_cons, List.eraseDups_cons, List.map_cons]
    congr 1
    rw [List.filter_map]
    have : ((fun b => !b == a.exact) ∘ Vec2.exact : Vec2 (Fl R) → Bool) = fun b => !b == a := by
      funext b; simp only [Function.comp, exact_beq b a]
    rw [this, ih _ _ _ rfl]
    exact Nat.lt_succ_of_le (List.length_filter_le _ _)

theorem pySet_exact (order : List (Vec2 (Fl R)) → List (Vec2 (Fl R))) (order' : List (Vec2 F) → List (Vec2 F))
    (ho : ∀ l : List (Vec2 (Fl R)), order' (l.map Vec2.exact) = (order l).map Vec2.exact) (l d : List (Vec2 (Fl R))) :
    Hull.pySet order' (l.map Vec2.exact) (d.map Vec2.exact) = (Hull.pySet order l d).map Vec2.exact := by
  unfold Hull.pySet
  rw [eraseDups_exact, List.filter_map, ho]
  congr 3
  funext p
  simp only [Function.comp]
  congr 1
  induction d with
  | nil => rfl
  | cons a d ih => rw [List.map_cons, List.contains_cons, List.contains_cons, ih, exact_beq p a]

theorem pySet_mem {K : Type} [BEq K] [LawfulBEq (Vec2 K)] {order : List (Vec2 K) → List (Vec2 K)} (ho : ∀ l, (order l).Perm l)
    {l d : List (Vec2 K)} {v : Vec2 K} (h : v ∈ Hull.pySet order l d) : v ∈ l := by
  unfold Hull.pySet at h
  rw [(ho _).mem_iff] at h
  exact List.mem_eraseDups.mp (List.mem_of_mem_filter h)

theorem HullGrid.quickHull (hG : HullGrid R u B) (order : List (Vec2 (Fl R)) → List (Vec2 (Fl R)))
    (order' : List (Vec2 F) → List (Vec2 F)) (hp : ∀ l, (order l).Perm l)
    (ho : ∀ l : List (Vec2 (Fl R)), order' (l.map Vec2.exact) = (order l).map Vec2.exact)
    (ps : List (Vec2 (Fl R))) (h : ∀ v ∈ ps, OnGrid u B v) :
    Hull.quickHull order' (ps.map Vec2.exact) = (Hull.quickHull order ps).map (List.map Vec2.exact) := by
  cases ps with
  | nil => rfl
  | cons p ps =>
    have hF := hG.fine
    obtain ⟨m1, m2⟩ := extremes_mem p (p :: ps)
    have hm : ∀ v, v ∈ p :: p :: ps → OnGrid u B v := by
      intro v hv
      rcases List.mem_cons.mp hv with rfl | hv
      · exact h _ List.mem_cons_self
      · exact h v hv
    have hl := hm _ m1
    have hr := hm _ m2
    have he := extremes_exact p (p :: ps)
    have hi : ∀ q ∈ p :: ps, ((((Hull.extremes p (p :: ps)).2.exact.x - (Hull.extremes p (p :: ps)).1.exact.x) *
        (q.exact.y - (Hull.extremes p (p :: ps)).1.exact.y) - (q.exact.x - (Hull.extremes p (p :: ps)).1.exact.x) *
        ((Hull.extremes p (p :: ps)).2.exact.y - (Hull.extremes p (p :: ps)).1.exact.y) > 0) ↔
        (((Hull.extremes p (p :: ps)).2.x - (Hull.extremes p (p :: ps)).1.x) *
        (q.y - (Hull.extremes p (p :: ps)).1.y) - (q.x - (Hull.extremes p (p :: ps)).1.x) *
        ((Hull.extremes p (p :: ps)).2.y - (Hull.extremes p (p :: ps)).1.y) > 0)) := by
      intro q hq
      rw [gt_iff_lt, gt_iff_lt, val_lt, hF.turn (h q hq) hl hr, val_zero]
    rw [List.map_cons] at he
    unfold Hull.quickHull
    simp only [List.map_cons, he]
    set L := (Hull.extremes p (p :: ps)).1
    set M := (Hull.extremes p (p :: ps)).2
    have filt : ∀ (f : Vec2 F → Bool) (g : Vec2 (Fl R) → Bool), (∀ q ∈ p :: ps, f q.exact = g q) →
        (p.exact :: ps.map Vec2.exact).filter f = ((p :: ps).filter g).map Vec2.exact := by
      intro f g hfg
      rw [← List.map_cons, List.filter_map]
      congr 1
      exact List.filter_congr fun q hq => hfg q hq
    have d2 : [L.exact, M.exact] = [L, M].map Vec2.exact := rfl
    rw [filt _ (fun q => decide ((M.x - L.x) * (q.y - L.y) - (q.x - L.x) * (M.y - L.y) > 0))
        (fun q hq => by rw [decide_eq_decide]; exact hi q hq),
      filt _ (fun q => !decide ((M.x - L.x) * (q.y - L.y) - (q.x - L.x) * (M.y - L.y) > 0))
        (fun q hq => by rw [decide_eq_decide.mpr (hi q hq)]), d2,
      pySet_exact order order' ho, pySet_exact order order' ho]
    have gU := fun v (hv : v ∈ Hull.pySet order ((p :: ps).filter (fun q => decide ((M.x - L.x) * (q.y - L.y) -
      (q.x - L.x) * (M.y - L.y) > 0))) [L, M]) => h v (List.mem_of_mem_filter (pySet_mem hp hv))
    have gL := fun v (hv : v ∈ Hull.pySet order ((p :: ps).filter (fun q => !decide ((M.x - L.x) * (q.y - L.y) -
      (q.x - L.x) * (M.y - L.y) > 0))) [L, M]) => h v (List.mem_of_mem_filter (pySet_mem hp hv))
    generalize Hull.pySet order ((p :: ps).filter (fun q => decide ((M.x - L.x) * (q.y - L.y) -
      (q.x - L.x) * (M.y - L.y) > 0))) [L, M] = U at gU ⊢
    generalize Hull.pySet order ((p :: ps).filter (fun q => !decide ((M.x - L.x) * (q.y - L.y) -
      (q.x - L.x) * (M.y - L.y) > 0))) [L, M] = W at gL ⊢
    have e1 := hG.partitionPoints U L M gU hl hr
    have e2 := hG.partitionPoints W M L gL hr hl
    simp only [List.isEmpty_map]
    rw [e1, e2]
    cases U.isEmpty <;> cases W.isEmpty <;>
      simp only [if_true, if_false, Bool.false_eq_true, bind, Except.bind, pure, Except.pure, Except.map]
    · cases Hull.partitionPoints U L M with
      | error e => rfl
      | ok x =>
        cases Hull.partitionPoints W M L with
        | error e => rfl
        | ok y => simp only [List.map_append]
    · cases Hull.partitionPoints U L M with
      | error e => rfl
      | ok x => simp only [List.map_append, List.map_cons, List.map_nil]
    · cases Hull.partitionPoints W M L with
      | error e => rfl
      | ok y => simp only [List.map_append, List.map_cons, List.map_nil]
    · rfl

end Planar
