import Verif.Lemmas.HullScan
import Verif.Lemmas.YMono
/- One partition of the quick hull, with everything it calls. -/
set_option linter.unusedSectionVars false
namespace Planar.Hull
open Spec
variable {K : Type} [Field K] [LinearOrder K] [IsStrictOrderedRing K]

theorem side_start (a b : Vec2 K) : side a b a = 0 := by simp only [side]; ring
theorem side_end (a b : Vec2 K) : side a b b = 0 := by simp only [side]; ring

/-! ### the scan -/

theorem scan_fold {p0 p1 : Vec2 K} (hT : 0 < lineOrder p0 p1 p1) (l : List (Vec2 K)) : ∀ st : List (Vec2 K),
    Chain p0 p1 st → (∀ v ∈ st, 0 ≤ side p0 p1 v) → l.Pairwise (fun a b => lineOrder p0 p1 a ≤ lineOrder p0 p1 b) →
    (∀ x ∈ l, 0 < lineOrder p0 p1 x ∧ lineOrder p0 p1 x ≤ lineOrder p0 p1 p1 ∧ 0 ≤ side p0 p1 x) →
    (∀ v ∈ st.head?, ∀ x ∈ l, lineOrder p0 p1 v ≤ lineOrder p0 p1 x) →
    Chain p0 p1 (l.foldl (fun st p => p :: popStack p st) st) ∧
    (∀ v ∈ l.foldl (fun st p => p :: popStack p st) st, v ∈ st ∨ v ∈ l) ∧
    ∀ ws, InHull ws p0 → InHull ws p1 → (∀ v ∈ l.foldl (fun st p => p :: popStack p st) st, InHull ws v) →
      ∀ v, v ∈ st ∨ v ∈ l → InHull ws v := by
  have pop_sub : ∀ (p : Vec2 K) (st : List (Vec2 K)), ∀ v ∈ popStack p st, v ∈ st := by
    intro p st
    induction st with
    | nil => intro v hv; simp [popStack] at hv
    | cons a st ih =>
      rcases st with _ | ⟨b, st⟩
      · intro v hv; simpa [popStack] using hv
      · rw [popStack_eq]
        split
        · intro v hv; exact List.mem_cons_of_mem _ (ih v hv)
        · intro v hv; exact hv
  induction l with
  | nil =>
    intro st hc _ _ _ _
    refine ⟨hc, fun v hv => Or.inl hv, ?_⟩
    intro ws _ _ hw v hv
    rcases hv with hv | hv
    · exact hw v hv
    · simp at hv
  | cons p l ih =>
    intro st hc hh hp hl hle
    rw [List.pairwise_cons] at hp
    obtain ⟨q0, q1, q2⟩ := hl p List.mem_cons_self
    have hle' : ∀ v ∈ st.head?, lineOrder p0 p1 v ≤ lineOrder p0 p1 p := fun v hv => hle v hv p List.mem_cons_self
    obtain ⟨i1, i2, i3⟩ := ih (p :: popStack p st) (hc.push q0 hle') (by
        intro v hv
        rcases List.mem_cons.mp hv with rfl | hv
        · exact q2
        · exact hh v (pop_sub p st v hv)) hp.2 (fun x hx => hl x (List.mem_cons_of_mem _ hx)) (by
        intro v hv x hx
        simp only [List.head?_cons, Option.mem_def, Option.some.injEq] at hv
        subst hv
        exact hp.1 x hx)
    rw [List.foldl_cons]
    refine ⟨i1, ?_, ?_⟩
    · intro v hv
      rcases i2 v hv with h | h
      · rcases List.mem_cons.mp h with rfl | h
        · exact Or.inr List.mem_cons_self
        · exact Or.inl (pop_sub p st v h)
      · exact Or.inr (List.mem_cons_of_mem _ h)
    · intro ws h0 h1 hw v hv
      have hall := i3 ws h0 h1 hw
      rcases hv with hv | hv
      · exact hc.keep hT q0 q1 hle' hh ws h0 h1 (fun u hu => hall u (Or.inl hu)) v hv
      · rcases List.mem_cons.mp hv with rfl | hv
        · exact hall v (Or.inl List.mem_cons_self)
        · exact hall v (Or.inr hv)

theorem Chain.last {p0 p1 : Vec2 K} {st : List (Vec2 K)} (h : Chain p0 p1 st) : st.getLast? = some p0 := by
  induction h with
  | base => rfl
  | one _ => rfl
  | more _ _ _ ih => rw [List.getLast?_cons_cons]; exact ih

theorem Chain.order {p0 p1 : Vec2 K} {st : List (Vec2 K)} (h : Chain p0 p1 st) :
    ∀ e ∈ pairs st, 0 ≤ lineOrder p0 p1 e.1 ∧ 0 < lineOrder p0 p1 e.2 := by
  have pos : ∀ st : List (Vec2 K), Chain p0 p1 st → ∀ v ∈ st.head?, 0 ≤ lineOrder p0 p1 v := by
    intro st h
    induction h with
    | base => intro v hv; simp at hv; rw [← hv, order_start]
    | one ht => intro v hv; simp at hv; rw [← hv]; exact ht.le
    | more ht _ _ ih => intro v hv; simp at hv; rw [← hv]; exact (ih _ (by simp)).trans ht
  induction h with
  | base => intro e he; simp [pairs] at he
  | one ht =>
    intro e he
    simp only [pairs, List.mem_singleton] at he
    subst he
    exact ⟨by rw [order_start], ht⟩
  | more ht hs h ih =>
    intro e he
    rw [pairs] at he
    rcases List.mem_cons.mp he with rfl | he
    · have : 0 < lineOrder p0 p1 (_ : Vec2 K) := (ih _ (by rw [pairs]; exact List.mem_cons_self)).2
      exact ⟨this.le, this.trans_le ht⟩
    · exact ih e he

/-- The edges of a stack are the edges of the path it stores. -/
theorem path_pairs {p0 : Vec2 K} (st : List (Vec2 K)) : ∀ w : List (Vec2 K), st.reverse = p0 :: w →
    ∀ e ∈ edgesFrom p0 w, e ∈ pairs st := by
  induction st with
  | nil => intro w h; simp at h
  | cons b st ih =>
    intro w h e he
    rcases st with _ | ⟨a, rest⟩
    · simp at h; rw [h.2] at he; simp at he
    · rw [pairs]
      rw [List.reverse_cons] at h
      rcases hr : (a :: rest).reverse with _ | ⟨q, w'⟩
      · simp at hr
      · rw [hr, List.cons_append, List.cons.injEq] at h
        obtain ⟨rfl, rfl⟩ := h
        rw [edgesFrom_append] at he
        rcases List.mem_append.mp he with he | he
        · exact List.mem_cons_of_mem _ (ih w' hr e he)
        · have hl : (q :: w').getLast (by simp) = a := by
            have : (q :: w').getLast? = some a := by rw [← hr]; simp
            rw [List.getLast?_eq_some_getLast (by simp)] at this
            exact Option.some.inj this
          simp only [edgesFrom_cons, edgesFrom_nil, List.mem_singleton] at he
          rw [hl] at he
          rw [he]; exact List.mem_cons_self

/-- The bottom of the stack stays. -/
theorem popStack_base (p p0 : Vec2 K) (X : List (Vec2 K)) :
    ∃ X', popStack p (X ++ [p0]) = X' ++ [p0] ∧ ∀ v ∈ X', v ∈ X := by
  induction X with
  | nil => exact ⟨[], by simp [popStack], by simp⟩
  | cons a X ih =>
    rcases X with _ | ⟨b, X⟩
    · simp only [List.cons_append, List.nil_append]
      rw [popStack_eq]
      split
      · exact ⟨[], by simp [popStack], by simp⟩
      · exact ⟨[a], by simp, by simp⟩
    · simp only [List.cons_append] at ih ⊢
      rw [popStack_eq]
      split
      · obtain ⟨X', h1, h2⟩ := ih
        exact ⟨X', h1, fun v hv => List.mem_cons_of_mem _ (h2 v hv)⟩
      · exact ⟨a :: b :: X, by simp, fun v hv => hv⟩

theorem fold_base (p0 : Vec2 K) (l : List (Vec2 K)) : ∀ X : List (Vec2 K),
    ∃ X', l.foldl (fun st p => p :: popStack p st) (X ++ [p0]) = X' ++ [p0] ∧ ∀ v ∈ X', v ∈ X ∨ v ∈ l := by
  induction l with
  | nil => intro X; exact ⟨X, rfl, fun v hv => Or.inl hv⟩
  | cons p l ih =>
    intro X
    obtain ⟨X1, h1, h2⟩ := popStack_base p p0 X
    obtain ⟨X2, h3, h4⟩ := ih (p :: X1)
    refine ⟨X2, by rw [List.foldl_cons, h1]; exact h3, ?_⟩
    intro v hv
    rcases h4 v hv with h | h
    · rcases List.mem_cons.mp h with rfl | h
      · exact Or.inr List.mem_cons_self
      · exact Or.inl (h2 v h)
    · exact Or.inr (List.mem_cons_of_mem _ h)

/-- The stack of the scan before its top is removed. -/
theorem sort_stack (pts : List (Vec2 K)) (p0 p1 : Vec2 K) : ∃ X,
    (pySorted (fun a b => decide (lineOrder p0 p1 a < lineOrder p0 p1 b)) pts ++ [p1]).foldl
      (fun st p => p :: popStack p st) [p0] = p1 :: (X ++ [p0]) ∧ (∀ v ∈ X, v ∈ pts) ∧
    sortPoints pts p0 p1 = p0 :: X.reverse := by
  obtain ⟨X1, h1, h2⟩ := fold_base p0 (pySorted (fun a b => decide (lineOrder p0 p1 a < lineOrder p0 p1 b)) pts) []
  obtain ⟨X, h3, h4⟩ := popStack_base p1 p0 X1
  have hst : (pySorted (fun a b => decide (lineOrder p0 p1 a < lineOrder p0 p1 b)) pts ++ [p1]).foldl
      (fun st p => p :: popStack p st) [p0] = p1 :: (X ++ [p0]) := by
    rw [List.foldl_append, List.foldl_cons, List.foldl_nil]
    rw [List.nil_append] at h1
    rw [h1, h3]
  refine ⟨X, hst, ?_, ?_⟩
  · intro v hv
    rcases h2 v (h4 v hv) with h | h
    · simp at h
    · exact (pySorted_perm _ _).mem_iff.mp h
  · simp only [sortPoints, hst]
    simp

/-! ### what a call is given and what it appends -/

/-- The points of a call: all those of `S` on the left of `p0 p1` (and some on it). -/
structure Ctx (S pts : List (Vec2 K)) (p0 p1 : Vec2 K) : Prop where
  h0 : p0 ∈ S
  h1 : p1 ∈ S
  sub : ∀ p ∈ pts, p ∈ S
  pos : ∀ p ∈ pts, 0 ≤ side p0 p1 p
  on : ∀ p ∈ pts, side p0 p1 p = 0 → OnEdge (p0, p1) p
  all : ∀ s ∈ S, 0 < side p0 p1 s → s ∈ pts
  left : pts ≠ [] → Support S p0 p1
  right : pts ≠ [] → Support S p1 p0

/-- The part of the hull from `p0` to `p1`, without `p1`. -/
def SubHull (S pts : List (Vec2 K)) (p0 p1 : Vec2 K) (h : List (Vec2 K)) : Prop :=
  ∃ t, h = p0 :: t ∧ (∀ e ∈ edgesFrom p0 (t ++ [p1]), ∀ s ∈ S, side e.1 e.2 s ≤ 0) ∧ (∀ v ∈ t, v ∈ pts) ∧
    (∀ p ∈ pts, InHull (h ++ [p1]) p) ∧ ((∀ v ∈ t, 0 < side p0 p1 v) ∨ ∀ s ∈ S, side p0 p1 s ≤ 0)

/-- All the points are between the perpendiculars at `p0` and `p1`, and not on the first one. -/
def Between (pts : List (Vec2 K)) (p0 p1 : Vec2 K) : Prop :=
  ∀ p ∈ pts, 0 < lineOrder p0 p1 p ∧ lineOrder p0 p1 p ≤ lineOrder p0 p1 p1

theorem subHull_nil {S : List (Vec2 K)} {p0 p1 : Vec2 K} (h : ∀ s ∈ S, side p0 p1 s ≤ 0) : SubHull S [] p0 p1 [p0] := by
  refine ⟨[], rfl, ?_, by simp, by simp, Or.inr h⟩
  intro e he
  simp only [List.nil_append, edgesFrom_cons, edgesFrom_nil, List.mem_singleton] at he
  subst he; exact h

theorem subHull_one {S : List (Vec2 K)} {p0 p1 l : Vec2 K} (h : Ctx S [l] p0 p1) (hl : 0 < side p0 p1 l) :
    SubHull S [l] p0 p1 [p0, l] := by
  refine ⟨[l], rfl, ?_, by simp, ?_, Or.inl (by simpa using hl)⟩
  · intro e he s hs
    simp only [List.cons_append, List.nil_append, edgesFrom_cons, edgesFrom_nil, List.mem_cons, List.not_mem_nil, or_false] at he
    have hls := h.sub l (by simp)
    rcases lt_or_ge 0 (side p0 p1 s) with hp | hp
    · have : s = l := by simpa using h.all s hs hp
      subst this
      rcases he with rfl | rfl
      · rw [side_end]
      · rw [side_start]
    · rcases he with rfl | rfl
      · exact behind0 (h.left (by simp)) hls hs hl hp
      · exact behind1 (h.right (by simp)) hls hs hl hp
  · intro p hp
    exact .vertex p (by simp at hp; simp [hp])

/-- A point below two chords of a convex chain is below the edge between them. -/
theorem side_quad {p0 p1 a b s : Vec2 K} (hN : (b.x - p0.x) * (p1.y - a.y) - (b.y - p0.y) * (p1.x - a.x) < 0)
    (h1 : side p0 b s ≤ 0) (h2 : side a p1 s ≤ 0) (h3 : side a b p1 ≤ 0) (h4 : side a b p0 ≤ 0) : side a b s ≤ 0 := by
  have e : ((b.x - p0.x) * (p1.y - a.y) - (b.y - p0.y) * (p1.x - a.x)) * side a b s =
      side a b p1 * side p0 b s + side a b p0 * (side a p1 s + side a b p1) := by
    simp only [side]; ring
  by_contra hc
  push Not at hc
  have n1 := mul_neg_of_neg_of_pos hN hc
  have n2 := mul_nonneg_of_nonpos_of_nonpos h3 h1
  have n3 := mul_nonneg_of_nonpos_of_nonpos h4 (add_nonpos h2 h3)
  linarith

theorem subHull_sort {S pts : List (Vec2 K)} {p0 p1 : Vec2 K} (h : Ctx S pts p0 p1) (hpos : ∀ p ∈ pts, 0 < side p0 p1 p)
    (hne : pts ≠ []) (hb : Between pts p0 p1) : SubHull S pts p0 p1 (sortPoints pts p0 p1) := by
  have hT : 0 < lineOrder p0 p1 p1 := by
    apply order_end_pos
    rintro rfl
    obtain ⟨p, hp⟩ := List.exists_mem_of_ne_nil _ hne
    have := hpos p hp
    simp [side] at this
  obtain ⟨sorted, hsort⟩ : ∃ l, l = pySorted (fun a b => decide (lineOrder p0 p1 a < lineOrder p0 p1 b)) pts := ⟨_, rfl⟩
  have hperm : sorted.Perm pts := by rw [hsort]; exact pySorted_perm _ _
  have hpw : sorted.Pairwise (fun a b => lineOrder p0 p1 a ≤ lineOrder p0 p1 b) := by
    rw [hsort]
    have := pySorted_pairwise (lt := fun a b => decide (lineOrder p0 p1 a < lineOrder p0 p1 b))
      (by intro a b c; simp only [decide_eq_false_iff_not, not_lt]; exact fun h1 h2 => h1.trans h2)
      (by intro a b; simp only [decide_eq_false_iff_not, not_lt]; exact le_total _ _) pts
    exact this.imp (by intro a b hab; simpa using hab)
  obtain ⟨X, hX, hXs, hsp⟩ := sort_stack pts p0 p1
  rw [← hsort] at hX
  have hz1 : side p0 p1 p1 = 0 := side_end _ _
  obtain ⟨c1, c2, c3⟩ := scan_fold hT (sorted ++ [p1]) [p0] .base
    (by intro v hv; rw [List.mem_singleton.mp hv, side_start])
    (by
      rw [List.pairwise_append]
      refine ⟨hpw, by simp, ?_⟩
      intro a ha b hb'
      rw [List.mem_singleton.mp hb']
      exact (hb a (hperm.mem_iff.mp ha)).2)
    (by
      intro x hx
      rcases List.mem_append.mp hx with hx | hx
      · have := hperm.mem_iff.mp hx
        exact ⟨(hb x this).1, (hb x this).2, (hpos x this).le⟩
      · rw [List.mem_singleton.mp hx]; exact ⟨hT, le_rfl, hz1.ge⟩)
    (by
      intro v hv x hx
      simp only [List.head?_cons, Option.mem_def, Option.some.injEq] at hv
      rw [← hv, order_start]
      rcases List.mem_append.mp hx with hx | hx
      · exact (hb x (hperm.mem_iff.mp hx)).1.le
      · rw [List.mem_singleton.mp hx]; exact hT.le)
  rw [hX] at c1 c2 c3
  have hmem : ∀ v, v ∈ p1 :: (X ++ [p0]) → v = p0 ∨ v = p1 ∨ v ∈ pts := by
    intro v hv
    rcases List.mem_cons.mp hv with h | h
    · exact Or.inr (Or.inl h)
    · rcases List.mem_append.mp h with h | h
      · exact Or.inr (Or.inr (hXs v h))
      · exact Or.inl (List.mem_singleton.mp h)
  have hall : ∀ p ∈ pts, InHull (p1 :: (X ++ [p0])) p := by
    intro p hp
    exact c3 _ (.vertex _ (by simp)) (.vertex _ (by simp)) (fun v hv => .vertex v hv) p
      (Or.inr (List.mem_append_left _ (hperm.mem_iff.mpr hp)))
  refine ⟨X.reverse, hsp, ?_, fun v hv => hXs v (List.mem_reverse.mp hv), ?_,
    Or.inl fun v hv => hpos v (hXs v (List.mem_reverse.mp hv))⟩
  · intro e he s hs
    have hp := path_pairs (p1 :: (X ++ [p0])) (X.reverse ++ [p1]) (by simp) e he
    have hconv := c1.convex hT e hp
    rcases lt_or_ge 0 (side p0 p1 s) with hps | hps
    · exact inHull_side (hall s (h.all s hs hps)) hconv
    · obtain ⟨o1, o2⟩ := c1.order e hp
      have hem := edgesFrom_mem he
      have ha : e.1 ∈ p1 :: (X ++ [p0]) := by have := hem.1; simp at this ⊢; tauto
      have hb' : e.2 ∈ p1 :: (X ++ [p0]) := by have := hem.2; simp at this ⊢; tauto
      have h3 := hconv p1 (by simp)
      have h4 := hconv p0 (by simp)
      obtain ⟨a, b⟩ := e
      simp only at *
      have S1 : side p0 b s ≤ 0 := by
        rcases hmem b hb' with rfl | rfl | hb1
        · rw [order_start] at o2; exact absurd o2 (lt_irrefl _)
        · exact hps
        · exact behind0 (h.left hne) (h.sub b hb1) hs (hpos b hb1) hps
      rcases hmem a ha with rfl | rfl | ha1
      · exact S1
      · -- the last point is not the start of an edge
        rcases hmem b hb' with rfl | rfl | hb1
        · rw [order_start] at o2; exact absurd o2 (lt_irrefl _)
        · simp [side]
        · have hB := hpos b hb1
          have e1 : side a b p0 = side p0 a b := by simp only [side]; ring
          rw [e1] at h4
          linarith
      · have S2 : side a p1 s ≤ 0 := behind1 (h.right hne) (h.sub a ha1) hs (hpos a ha1) hps
        rcases hmem b hb' with rfl | rfl | hb1
        · rw [order_start] at o2; exact absurd o2 (lt_irrefl _)
        · exact S2
        · refine side_quad ?_ S1 S2 h3 h4
          have e1 : lineOrder p0 p1 p1 * ((b.x - p0.x) * (p1.y - a.y) - (b.y - p0.y) * (p1.x - a.x)) =
              -(lineOrder p0 p1 b * side p0 p1 a + side p0 p1 b * (lineOrder p0 p1 p1 - lineOrder p0 p1 a)) := by
            simp only [lineOrder, side, Vec2.sub_x, Vec2.sub_y]; ring
          have n1 := mul_pos o2 (hpos a ha1)
          have n2 := mul_nonneg (hpos b hb1).le (sub_nonneg.mpr (hb a ha1).2)
          by_contra hc
          push Not at hc
          have := mul_nonneg hT.le hc
          linarith
  · intro p hp
    refine inHull_mono ?_ (hall p hp)
    intro v hv
    rw [hsp]
    simp at hv ⊢
    tauto

/-! ### the partition -/

/-- The furthest point of a partition, and the points left and right of the triangle. -/
def cutsAt (pts : List (Vec2 K)) (p0 p1 P : Vec2 K) : Prop :=
  (pts.foldl (furthestStep p0 (p1.x - p0.x) (p1.y - p0.y)) (-1, none)).2 = some P

/-- The sorted scans made by a partition: which points they are given, and between which ends. -/
inductive SortCall : List (Vec2 K) → Vec2 K → Vec2 K → List (Vec2 K) → Vec2 K → Vec2 K → Prop
  | left {pts p0 p1 P L R} (hP : cutsAt pts p0 p1 P) (hs : splitPoints pts P p0 p1 = (L, R)) (h1 : 1 < L.length)
      (h : (pts.length - L.length - R.length) * 4 < L.length) : SortCall pts p0 p1 L p0 P
  | right {pts p0 p1 P L R} (hP : cutsAt pts p0 p1 P) (hs : splitPoints pts P p0 p1 = (L, R)) (h1 : 1 < R.length)
      (h : (pts.length - L.length - R.length) * 4 < R.length) : SortCall pts p0 p1 R P p1
  | inLeft {pts p0 p1 P L R ps q0 q1} (hP : cutsAt pts p0 p1 P) (hs : splitPoints pts P p0 p1 = (L, R)) (h1 : 1 < L.length)
      (h : L.length ≤ (pts.length - L.length - R.length) * 4) (hc : SortCall L p0 P ps q0 q1) : SortCall pts p0 p1 ps q0 q1
  | inRight {pts p0 p1 P L R ps q0 q1} (hP : cutsAt pts p0 p1 P) (hs : splitPoints pts P p0 p1 = (L, R)) (h1 : 1 < R.length)
      (h : R.length ≤ (pts.length - L.length - R.length) * 4) (hc : SortCall R P p1 ps q0 q1) : SortCall pts p0 p1 ps q0 q1

/-- One side of a partition. -/
def sideOf (mx : Nat) (pts : List (Vec2 K)) (p0 p1 : Vec2 K) : Py (List (Vec2 K)) :=
  if pts.length ≤ 1 then .ok (p0 :: pts)
  else if pts.length ≤ mx ∧ 1 < pts.length then partitionPoints pts p0 p1
  else .ok (sortPoints pts p0 p1)

theorem partitionPoints_eq (pts : List (Vec2 K)) (p0 p1 : Vec2 K) : partitionPoints pts p0 p1 =
    match (pts.foldl (furthestStep p0 (p1.x - p0.x) (p1.y - p0.y)) (-1, none)).2 with
    | none => .error .nameError
    | some P => do
      let h1 ← sideOf ((pts.length - (splitPoints pts P p0 p1).1.length - (splitPoints pts P p0 p1).2.length) * 4)
        (splitPoints pts P p0 p1).1 p0 P
      let h2 ← sideOf ((pts.length - (splitPoints pts P p0 p1).1.length - (splitPoints pts P p0 p1).2.length) * 4)
        (splitPoints pts P p0 p1).2 P p1
      return h1 ++ h2 := by
  rw [partitionPoints]
  rcases (pts.foldl (furthestStep p0 (p1.x - p0.x) (p1.y - p0.y)) (-1, none)).2 with _ | P
  · rfl
  · have hc : P.copy = P := Vec2.copy_eq P
    simp only [hc, sideOf]
    generalize splitPoints pts P p0 p1 = lr
    by_cases c1 : lr.1.length ≤ 1 <;> by_cases c2 : lr.2.length ≤ 1 <;>
      by_cases c3 : lr.1.length ≤ (pts.length - lr.1.length - lr.2.length) * 4 ∧ 1 < lr.1.length <;>
      by_cases c4 : lr.2.length ≤ (pts.length - lr.1.length - lr.2.length) * 4 ∧ 1 < lr.2.length <;>
      simp only [c1, c2, c3, c4, and_self, if_true, if_false, dite_true, dite_false, dif_pos, dif_neg, not_false_eq_true]

/-- A partition appends its first end and some of its points, whatever the points are. -/
theorem partition_sub (n : Nat) : ∀ (pts : List (Vec2 K)) (p0 p1 : Vec2 K), pts.length ≤ n → ∀ h,
    partitionPoints pts p0 p1 = .ok h → ∃ t, h = p0 :: t ∧ ∀ v ∈ t, v ∈ pts := by
  have filt : ∀ (pts : List (Vec2 K)) (P p0 p1 : Vec2 K), (∀ v ∈ (splitPoints pts P p0 p1).1, v ∈ pts) ∧
      ∀ v ∈ (splitPoints pts P p0 p1).2, v ∈ pts := by
    intro pts P p0 p1
    simp only [splitPoints]
    split
    · simp
    · exact ⟨fun v hv => (List.mem_filter.mp hv).1, fun v hv => (List.mem_filter.mp hv).1⟩
  have far : ∀ (l : List (Vec2 K)) (p0 : Vec2 K) (dx dy : K) (acc : K × Option (Vec2 K)) (P : Vec2 K),
      (l.foldl (furthestStep p0 dx dy) acc).2 = some P → acc.2 = some P ∨ P ∈ l := by
    intro l p0 dx dy
    induction l with
    | nil => intro acc P h; exact Or.inl h
    | cons x l ih =>
      intro acc P h
      rw [List.foldl_cons] at h
      rcases ih _ P h with h | h
      · simp only [furthestStep] at h
        split at h
        · simp at h; exact Or.inr (by simp [h])
        · exact Or.inl h
      · exact Or.inr (List.mem_cons_of_mem _ h)
  induction n with
  | zero =>
    intro pts p0 p1 hn h he
    rw [partitionPoints_eq, List.eq_nil_of_length_eq_zero (Nat.le_zero.mp hn)] at he
    simp at he
  | succ n ih =>
    intro pts p0 p1 hn h he
    rw [partitionPoints_eq] at he
    rcases hP : (pts.foldl (furthestStep p0 (p1.x - p0.x) (p1.y - p0.y)) (-1, none)).2 with _ | P
    · rw [hP] at he; simp at he
    · rw [hP] at he
      have hPm : P ∈ pts := by
        rcases far _ _ _ _ _ _ hP with h | h
        · simp at h
        · exact h
      simp only at he
      have hf := filt pts P p0 p1
      generalize splitPoints pts P p0 p1 = lr at he hf
      obtain ⟨L, R⟩ := lr
      simp only at he hf
      have one : ∀ (Q : List (Vec2 K)) (q0 q1 : Vec2 K) (h : List (Vec2 K)),
          sideOf ((pts.length - L.length - R.length) * 4) Q q0 q1 = .ok h →
          (Q.length ≤ (pts.length - L.length - R.length) * 4 → 1 < Q.length → Q.length ≤ n) →
          ∃ t, h = q0 :: t ∧ ∀ v ∈ t, v ∈ Q := by
        intro Q q0 q1 h hq hsz
        simp only [sideOf] at hq
        split at hq
        · simp at hq; exact ⟨Q, hq.symm, fun v hv => hv⟩
        · split at hq
          · rename_i hc
            exact ih Q q0 q1 (hsz hc.1 hc.2) h hq
          · simp at hq
            obtain ⟨X, -, h2, h3⟩ := sort_stack Q q0 q1
            exact ⟨X.reverse, by rw [← hq, h3], fun v hv => h2 v (List.mem_reverse.mp hv)⟩
      rcases h1 : sideOf ((pts.length - L.length - R.length) * 4) L p0 P with e | a
      · rw [h1] at he; simp [bind, Except.bind] at he
      · rcases h2 : sideOf ((pts.length - L.length - R.length) * 4) R P p1 with e | b
        · rw [h1, h2] at he; simp [bind, Except.bind] at he
        · rw [h1, h2] at he
          simp only [bind, Except.bind, pure, Except.pure, Except.ok.injEq] at he
          obtain ⟨t1, e1, m1⟩ := one L p0 P a h1 (by omega)
          obtain ⟨t2, e2, m2⟩ := one R P p1 b h2 (by omega)
          refine ⟨t1 ++ P :: t2, by rw [← he, e1, e2]; simp, ?_⟩
          intro v hv
          rcases List.mem_append.mp hv with hv | hv
          · exact hf.1 v (m1 v hv)
          · rcases List.mem_cons.mp hv with rfl | hv
            · exact hPm
            · exact hf.2 v (m2 v hv)

/-- A partition with all its points on the left builds its part of the hull, if the sorted scans it makes do. -/
theorem partition_spec {S : List (Vec2 K)} (n : Nat) : ∀ (pts : List (Vec2 K)) (p0 p1 : Vec2 K), pts.length ≤ n →
    pts ≠ [] → Ctx S pts p0 p1 → (∀ ps q0 q1, SortCall pts p0 p1 ps q0 q1 → Between ps q0 q1) →
    ∃ h, partitionPoints pts p0 p1 = .ok h ∧ SubHull S pts p0 p1 h := by
  induction n with
  | zero => intro pts p0 p1 hn hne; exact absurd (List.eq_nil_of_length_eq_zero (Nat.le_zero.mp hn)) hne
  | succ n ih =>
    intro pts p0 p1 hn hne hc hs
    obtain ⟨P, hPm, hP, hmax⟩ := furthest_spec hne hc.pos
    rw [partitionPoints_eq, hP]
    simp only
    have hPS := hc.sub P hPm
    rcases (hc.pos P hPm).eq_or_lt with hD | hD
    · -- all the points are on the line
      rw [splitPoints_zero pts hD.symm]
      refine ⟨[p0, P], by simp [sideOf, bind, Except.bind, pure, Except.pure], [P], rfl, ?_, by simpa using hPm, ?_, ?_⟩
      · have hall : ∀ s ∈ S, side p0 p1 s ≤ 0 := by
          intro s hs
          by_contra h
          push Not at h
          have := hmax s (hc.all s hs h)
          linarith
        obtain ⟨τ, g0, g1, gx, gy⟩ := hc.on P hPm hD.symm
        simp only at gx gy
        intro e he s hs
        simp only [List.cons_append, List.nil_append, edgesFrom_cons, edgesFrom_nil, List.mem_cons, List.not_mem_nil, or_false] at he
        rcases he with rfl | rfl
        · have : side p0 P s = τ * side p0 p1 s := by simp only [side]; rw [gx, gy]; ring
          rw [this]; exact mul_nonpos_of_nonneg_of_nonpos g0 (hall s hs)
        · have : side P p1 s = (1 - τ) * side p0 p1 s := by simp only [side]; rw [gx, gy]; ring
          rw [this]; exact mul_nonpos_of_nonneg_of_nonpos (by linarith) (hall s hs)
      · intro p hp
        have h0 : side p0 p1 p = 0 := le_antisymm (by have := hmax p hp; linarith) (hc.pos p hp)
        obtain ⟨τ, g0, g1, gx, gy⟩ := hc.on p hp h0
        exact inHull_between (p := p0) (q := p1) (.vertex _ (by simp)) (.vertex _ (by simp)) g0 g1 gx gy
      · right
        intro s hs
        by_contra h
        push Not at h
        have := hmax s (hc.all s hs h)
        linarith
    · have hsplit := splitPoints_pos pts hD
      obtain ⟨L, hL⟩ : ∃ L, L = pts.filter fun p => decide (0 < side p0 P p) := ⟨_, rfl⟩
      obtain ⟨R, hR⟩ : ∃ R, R = pts.filter fun p => !(decide (0 < side p0 P p)) && decide (0 < side P p1 p) := ⟨_, rfl⟩
      rw [← hL, ← hR] at hsplit
      rw [hsplit]
      simp only
      have hmaxS : ∀ s ∈ S, side p0 p1 s ≤ side p0 p1 P := by
        intro s hs
        rcases lt_or_ge 0 (side p0 p1 s) with h | h
        · exact hmax s (hc.all s hs h)
        · exact h.trans hD.le
      have memL : ∀ p, p ∈ L ↔ p ∈ pts ∧ 0 < side p0 P p := by intro p; rw [hL, List.mem_filter]; simp
      have memR : ∀ p, p ∈ R ↔ p ∈ pts ∧ ¬ 0 < side p0 P p ∧ 0 < side P p1 p := by
        intro p; rw [hR, List.mem_filter]; simp
      have hsum : ∀ s : Vec2 K, side p0 P s + side P p1 s = side p0 p1 s - side p0 p1 P := by
        intro s; simp only [side]; ring
      have strict : ∀ s ∈ S, (0 < side p0 P s → 0 < side p0 p1 s) ∧ (0 < side P p1 s → 0 < side p0 p1 s) := by
        intro s hs
        constructor
        · intro h
          by_contra hcon
          push Not at hcon
          have := behind0 (hc.left hne) hPS hs hD hcon
          linarith
        · intro h
          by_contra hcon
          push Not at hcon
          have := behind1 (hc.right hne) hPS hs hD hcon
          linarith
      have ctxL : Ctx S L p0 P := by
        refine ⟨hc.h0, hPS, fun p hp => hc.sub p ((memL p).mp hp).1, fun p hp => ((memL p).mp hp).2.le, ?_, ?_, ?_, ?_⟩
        · intro p hp h
          have := ((memL p).mp hp).2
          rw [h] at this
          exact absurd this (lt_irrefl _)
        · intro s hs h
          exact (memL s).mpr ⟨hc.all s hs ((strict s hs).1 h), h⟩
        · intro h
          obtain ⟨l, hl⟩ := List.exists_mem_of_ne_nil _ h
          obtain ⟨h1, h2⟩ := (memL l).mp hl
          exact support_left (hc.left hne) (hc.sub l h1) hD ((strict l (hc.sub l h1)).1 h2) h2
        · intro _; exact (support_far hmaxS hD).1
      have ctxR : Ctx S R P p1 := by
        refine ⟨hPS, hc.h1, fun p hp => hc.sub p ((memR p).mp hp).1, fun p hp => ((memR p).mp hp).2.2.le, ?_, ?_, ?_, ?_⟩
        · intro p hp h
          have := ((memR p).mp hp).2.2
          rw [h] at this
          exact absurd this (lt_irrefl _)
        · intro s hs h
          refine (memR s).mpr ⟨hc.all s hs ((strict s hs).2 h), ?_, h⟩
          have := hsum s
          have := hmaxS s hs
          intro h'
          linarith
        · intro _; exact (support_far hmaxS hD).2
        · intro h
          obtain ⟨l, hl⟩ := List.exists_mem_of_ne_nil _ h
          obtain ⟨h1, -, h2⟩ := (memR l).mp hl
          exact support_right (hc.right hne) (hc.sub l h1) hD ((strict l (hc.sub l h1)).2 h2) h2
      have child : ∀ (Q : List (Vec2 K)) (q0 q1 : Vec2 K), Ctx S Q q0 q1 → (∀ p ∈ Q, 0 < side q0 q1 p) →
          (Q.length ≤ (pts.length - L.length - R.length) * 4 → 1 < Q.length → Q.length ≤ n) →
          (1 < Q.length → (pts.length - L.length - R.length) * 4 < Q.length → Between Q q0 q1) →
          (1 < Q.length → Q.length ≤ (pts.length - L.length - R.length) * 4 →
            ∀ ps a b, SortCall Q q0 q1 ps a b → Between ps a b) →
          ∃ h, sideOf ((pts.length - L.length - R.length) * 4) Q q0 q1 = .ok h ∧ SubHull S Q q0 q1 h := by
        intro Q q0 q1 hcQ hposQ hsz hb hcalls
        simp only [sideOf]
        split
        · rename_i hle
          rcases Q with _ | ⟨l, _ | ⟨m, Q⟩⟩
          · refine ⟨_, rfl, subHull_nil ?_⟩
            intro s hs
            by_contra h
            push Not at h
            have := hcQ.all s hs h
            simp at this
          · exact ⟨_, rfl, subHull_one hcQ (hposQ l (by simp))⟩
          · simp at hle
        · rename_i hle
          have hQne : Q ≠ [] := by rintro rfl; simp at hle
          split
          · rename_i hcond
            exact ih Q q0 q1 (hsz hcond.1 hcond.2) hQne hcQ (hcalls hcond.2 hcond.1)
          · rename_i hcond
            exact ⟨_, rfl, subHull_sort hcQ hposQ hQne (hb (by omega) (by omega))⟩
      obtain ⟨h1, e1, t1, rfl, a1, b1, c1, -⟩ := child L p0 P ctxL (fun p hp => ((memL p).mp hp).2) (by omega)
        (fun g1 g2 => hs _ _ _ (.left hP hsplit g1 g2)) (fun g1 g2 ps a b hcall => hs _ _ _ (.inLeft hP hsplit g1 g2 hcall))
      obtain ⟨h2, e2, t2, rfl, a2, b2, c2, -⟩ := child R P p1 ctxR (fun p hp => ((memR p).mp hp).2.2) (by omega)
        (fun g1 g2 => hs _ _ _ (.right hP hsplit g1 g2)) (fun g1 g2 ps a b hcall => hs _ _ _ (.inRight hP hsplit g1 g2 hcall))
      refine ⟨p0 :: t1 ++ P :: t2, by rw [e1, e2]; rfl, t1 ++ P :: t2, rfl, ?_, ?_, ?_, ?_⟩
      · intro e he
        rw [Polygon.edgesFrom_cut] at he
        rcases List.mem_append.mp he with he | he
        · exact a1 e he
        · exact a2 e he
      · intro v hv
        rcases List.mem_append.mp hv with hv | hv
        · exact ((memL v).mp (b1 v hv)).1
        · rcases List.mem_cons.mp hv with rfl | hv
          · exact hPm
          · exact ((memR v).mp (b2 v hv)).1
      · intro p hp
        by_cases hpL : p ∈ L
        · refine inHull_mono ?_ (c1 p hpL)
          intro v hv; simp at hv ⊢; tauto
        · by_cases hpR : p ∈ R
          · refine inHull_mono ?_ (c2 p hpR)
            intro v hv; simp at hv ⊢; tauto
          · have n1 : side p0 P p ≤ 0 := by
              by_contra h; push Not at h; exact hpL ((memL p).mpr ⟨hp, h⟩)
            have n2 : side P p1 p ≤ 0 := by
              by_contra h; push Not at h; exact hpR ((memR p).mpr ⟨hp, not_lt.mpr n1, h⟩)
            exact inHull_of_sides (.vertex _ (by simp)) (.vertex _ (by simp)) (.vertex _ (by simp)) hD n1 n2 (hc.pos p hp)
      · left
        intro v hv
        rcases List.mem_append.mp hv with hv | hv
        · have := (memL v).mp (b1 v hv)
          exact (strict v (hc.sub v this.1)).1 this.2
        · rcases List.mem_cons.mp hv with rfl | hv
          · exact hD
          · have := (memR v).mp (b2 v hv)
            exact (strict v (hc.sub v this.1)).2 this.2.2

end Planar.Hull
