import Verif.Lemmas.HullRound
import Verif.Props.Convex
/- C57: `Polygon.convex_hull`. -/
set_option linter.unusedSectionVars false
namespace Planar
open Spec Polygon
variable {K : Type} [Field K] [LinearOrder K] [IsStrictOrderedRing K]

namespace Hull

theorem eraseDups_spec {α : Type} [BEq α] [LawfulBEq α] (n : Nat) : ∀ l : List α, l.length ≤ n →
    (∀ a, a ∈ l.eraseDups ↔ a ∈ l) ∧ l.eraseDups.Nodup := by
  induction n with
  | zero => intro l h; rw [List.eq_nil_of_length_eq_zero (Nat.le_zero.mp h)]; simp
  | succ n ih =>
    intro l h
    rcases l with _ | ⟨x, l⟩
    · simp
    · rw [List.eraseDups_cons]
      obtain ⟨h1, h2⟩ := ih (l.filter fun b => !b == x) ((List.length_filter_le _ _).trans (by simpa using h))
      refine ⟨?_, ?_⟩
      · intro a
        rw [List.mem_cons, List.mem_cons, h1, List.mem_filter]
        by_cases hax : a = x
        · simp [hax]
        · simp [hax]
      · rw [List.nodup_cons]
        refine ⟨?_, h2⟩
        rw [h1]; simp

section
variable {order : List (Vec2 K) → List (Vec2 K)} (hord : ∀ l, (order l).Perm l)
include hord

theorem mem_pySet (ps drop : List (Vec2 K)) (v : Vec2 K) : v ∈ pySet order ps drop ↔ v ∈ ps ∧ v ∉ drop := by
  rw [pySet, (hord _).mem_iff, List.mem_filter, (eraseDups_spec _ ps le_rfl).1]
  simp

theorem pySet_nodup (ps drop : List (Vec2 K)) : (pySet order ps drop).Nodup := by
  rw [pySet, (hord _).nodup_iff]
  exact (eraseDups_spec _ ps le_rfl).2.filter _
end

theorem extremes_spec (p : Vec2 K) (rest : List (Vec2 K)) :
    (extremes p (p :: rest)).1 ∈ p :: rest ∧ (extremes p (p :: rest)).2 ∈ p :: rest ∧
    ∀ s ∈ p :: rest, (extremes p (p :: rest)).1.x ≤ s.x ∧ s.x ≤ (extremes p (p :: rest)).2.x := by
  have gen : ∀ (l : List (Vec2 K)) (acc : Vec2 K × Vec2 K), acc.1.x ≤ acc.2.x →
      ((l.foldl (fun acc q => if q.x < acc.1.x then (q, acc.2) else if q.x > acc.2.x then (acc.1, q) else acc) acc).1 = acc.1 ∨
        (l.foldl (fun acc q => if q.x < acc.1.x then (q, acc.2) else if q.x > acc.2.x then (acc.1, q) else acc) acc).1 ∈ l) ∧
      ((l.foldl (fun acc q => if q.x < acc.1.x then (q, acc.2) else if q.x > acc.2.x then (acc.1, q) else acc) acc).2 = acc.2 ∨
        (l.foldl (fun acc q => if q.x < acc.1.x then (q, acc.2) else if q.x > acc.2.x then (acc.1, q) else acc) acc).2 ∈ l) ∧
      ∀ s, s = acc.1 ∨ s = acc.2 ∨ s ∈ l →
        (l.foldl (fun acc q => if q.x < acc.1.x then (q, acc.2) else if q.x > acc.2.x then (acc.1, q) else acc) acc).1.x ≤ s.x ∧
        s.x ≤ (l.foldl (fun acc q => if q.x < acc.1.x then (q, acc.2) else if q.x > acc.2.x then (acc.1, q) else acc) acc).2.x := by
    intro l
    induction l with
    | nil =>
      intro acc h
      refine ⟨Or.inl rfl, Or.inl rfl, ?_⟩
      rintro s (rfl | rfl | hs)
      · exact ⟨le_rfl, h⟩
      · exact ⟨h, le_rfl⟩
      · simp at hs
    | cons q l ih =>
      intro acc h
      rw [List.foldl_cons]
      obtain ⟨acc', hacc'⟩ : ∃ a, a = (if q.x < acc.1.x then (q, acc.2) else if q.x > acc.2.x then (acc.1, q) else acc) := ⟨_, rfl⟩
      have step : acc'.1.x ≤ acc'.2.x ∧ (acc'.1 = acc.1 ∨ acc'.1 = q) ∧ (acc'.2 = acc.2 ∨ acc'.2 = q) ∧
          acc'.1.x ≤ acc.1.x ∧ acc'.1.x ≤ q.x ∧ acc.2.x ≤ acc'.2.x ∧ q.x ≤ acc'.2.x := by
        rw [hacc']
        split
        · rename_i hq
          exact ⟨(hq.le.trans h), Or.inr rfl, Or.inl rfl, hq.le, le_rfl, le_rfl, hq.le.trans h⟩
        · rename_i hq
          split
          · rename_i hq'
            exact ⟨h.trans (le_of_lt hq'), Or.inl rfl, Or.inr rfl, le_rfl, not_lt.mp hq, le_of_lt hq', le_rfl⟩
          · rename_i hq'
            exact ⟨h, Or.inl rfl, Or.inl rfl, le_rfl, not_lt.mp hq, le_rfl, not_lt.mp hq'⟩
      rw [← hacc']
      obtain ⟨s1, s2, s3, s4, s5, s6, s7⟩ := step
      obtain ⟨i1, i2, i3⟩ := ih acc' s1
      have l1 := (i3 _ (Or.inl rfl)).1
      have l2 := (i3 _ (Or.inr (Or.inl rfl))).2
      have l3 := (i3 _ (Or.inl rfl)).2
      have l4 := (i3 _ (Or.inr (Or.inl rfl))).1
      refine ⟨?_, ?_, ?_⟩
      · rcases i1 with h | h
        · rcases s2 with h' | h'
          · exact Or.inl (h.trans h')
          · exact Or.inr (by rw [h, h']; exact List.mem_cons_self)
        · exact Or.inr (List.mem_cons_of_mem _ h)
      · rcases i2 with h | h
        · rcases s3 with h' | h'
          · exact Or.inl (h.trans h')
          · exact Or.inr (by rw [h, h']; exact List.mem_cons_self)
        · exact Or.inr (List.mem_cons_of_mem _ h)
      · rintro s (rfl | rfl | hs)
        · exact ⟨by linarith, by linarith⟩
        · exact ⟨by linarith, by linarith⟩
        · rcases List.mem_cons.mp hs with rfl | hs
          · exact ⟨by linarith, by linarith⟩
          · exact i3 s (Or.inr (Or.inr hs))
  obtain ⟨h1, h2, h3⟩ := gen (p :: rest) (p, p) le_rfl
  simp only [extremes]
  refine ⟨?_, ?_, fun s hs => h3 s (Or.inr (Or.inr hs))⟩
  · rcases h1 with h | h
    · rw [h]; exact List.mem_cons_self
    · exact h
  · rcases h2 with h | h
    · rw [h]; exact List.mem_cons_self
    · exact h

/-- The points above and below the line from the leftmost to the rightmost point, as the code collects them. -/
def upper (order : List (Vec2 K) → List (Vec2 K)) (points : List (Vec2 K)) (L R : Vec2 K) : List (Vec2 K) :=
  pySet order (points.filter fun q => decide ((R.x - L.x) * (q.y - L.y) - (q.x - L.x) * (R.y - L.y) > 0)) [L, R]
def lower (order : List (Vec2 K) → List (Vec2 K)) (points : List (Vec2 K)) (L R : Vec2 K) : List (Vec2 K) :=
  pySet order (points.filter fun q => !decide ((R.x - L.x) * (q.y - L.y) - (q.x - L.x) * (R.y - L.y) > 0)) [L, R]

/-- The sorted scans made by `convex_hull`: the points they are given and the ends they are between. -/
def Scan (order : List (Vec2 K) → List (Vec2 K)) (points ps : List (Vec2 K)) (a b : Vec2 K) : Prop :=
  ∃ p ∈ points.head?, SortCall (upper order points (extremes p points).1 (extremes p points).2)
      (extremes p points).1 (extremes p points).2 ps a b ∨
    SortCall (lower order points (extremes p points).1 (extremes p points).2)
      (extremes p points).2 (extremes p points).1 ps a b

/-- One of the two sides of the first step. -/
def startSide (Q : List (Vec2 K)) (p0 p1 : Vec2 K) : Py (List (Vec2 K)) :=
  if Q.isEmpty then .ok [p0] else partitionPoints Q p0 p1

/-- Everything about the first step. -/
theorem quick_start {order : List (Vec2 K) → List (Vec2 K)} (hord : ∀ l, (order l).Perm l) {points : List (Vec2 K)} (hne : points ≠ []) :
    ∃ L R up lo, L ∈ points ∧ R ∈ points ∧ (∀ s ∈ points, L.x ≤ s.x ∧ s.x ≤ R.x) ∧
      (∀ v, v ∈ up ↔ v ∈ points ∧ 0 < side L R v ∧ v ≠ L ∧ v ≠ R) ∧
      (∀ v, v ∈ lo ↔ v ∈ points ∧ side L R v ≤ 0 ∧ v ≠ L ∧ v ≠ R) ∧ up.Nodup ∧ lo.Nodup ∧
      (∀ ps a b, SortCall up L R ps a b ∨ SortCall lo R L ps a b ↔ Scan order points ps a b) ∧
      quickHull order points = (startSide up L R).bind fun h1 => (startSide lo R L).bind fun h2 => .ok (h1 ++ h2) := by
  rcases points with _ | ⟨p, rest⟩
  · exact absurd rfl hne
  · obtain ⟨hL, hR, hx⟩ := extremes_spec p rest
    have hside : ∀ L R q : Vec2 K, (R.x - L.x) * (q.y - L.y) - (q.x - L.x) * (R.y - L.y) = side L R q := by
      intro L R q; simp only [side]; ring
    refine ⟨_, _, upper order (p :: rest) (extremes p (p :: rest)).1 (extremes p (p :: rest)).2,
      lower order (p :: rest) (extremes p (p :: rest)).1 (extremes p (p :: rest)).2, hL, hR, hx, ?_, ?_,
      pySet_nodup hord _ _, pySet_nodup hord _ _, ?_, ?_⟩
    · intro v
      rw [upper, mem_pySet hord, List.mem_filter]
      simp only [hside, decide_eq_true_eq, gt_iff_lt, List.mem_cons, List.not_mem_nil, or_false, not_or, and_assoc]
    · intro v
      rw [lower, mem_pySet hord, List.mem_filter]
      simp only [hside, gt_iff_lt, List.mem_cons, List.not_mem_nil, or_false, not_or, and_assoc, Bool.not_eq_true',
        decide_eq_false_iff_not, not_lt]
    · intro ps a b
      constructor
      · intro h; exact ⟨p, by simp, h⟩
      · rintro ⟨q, hq, h⟩
        obtain rfl : p = q := by simpa using hq
        exact h
    · rw [quickHull]
      simp only [startSide]
      rw [show (pySet order (List.filter _ (p :: rest)) [_, _]) = upper order (p :: rest) (extremes p (p :: rest)).1
        (extremes p (p :: rest)).2 from rfl]
      rw [show (pySet order (List.filter _ (p :: rest)) [_, _]) = lower order (p :: rest) (extremes p (p :: rest)).1
        (extremes p (p :: rest)).2 from rfl]
      generalize upper order (p :: rest) (extremes p (p :: rest)).1 (extremes p (p :: rest)).2 = U
      generalize lower order (p :: rest) (extremes p (p :: rest)).1 (extremes p (p :: rest)).2 = W
      by_cases c1 : U.isEmpty = true <;> by_cases c2 : W.isEmpty = true <;> simp only [c1, c2, if_true, if_false] <;> rfl

/-- A partition of points on the left always ends, and adds a vertex. -/
theorem partition_ok (n : Nat) : ∀ (pts : List (Vec2 K)) (p0 p1 : Vec2 K), pts.length ≤ n → pts ≠ [] →
    (∀ p ∈ pts, 0 ≤ side p0 p1 p) → ∃ h, partitionPoints pts p0 p1 = .ok h ∧ 2 ≤ h.length := by
  induction n with
  | zero => intro pts p0 p1 hn hne; exact absurd (List.eq_nil_of_length_eq_zero (Nat.le_zero.mp hn)) hne
  | succ n ih =>
    intro pts p0 p1 hn hne hpos
    obtain ⟨P, hPm, hP, hmax⟩ := furthest_spec hne hpos
    rw [partitionPoints_eq, hP]
    simp only
    obtain ⟨L, R, hsplit, hL, hR⟩ : ∃ L R, splitPoints pts P p0 p1 = (L, R) ∧ (∀ p ∈ L, 0 ≤ side p0 P p) ∧
        ∀ p ∈ R, 0 ≤ side P p1 p := by
      rcases (hpos P hPm).eq_or_lt with hD | hD
      · exact ⟨[], [], splitPoints_zero pts hD.symm, by simp, by simp⟩
      · refine ⟨_, _, splitPoints_pos pts hD, ?_, ?_⟩
        · intro p hp; simp at hp; exact hp.2.le
        · intro p hp; simp at hp; exact hp.2.2.le
    rw [hsplit]
    simp only
    have child : ∀ (Q : List (Vec2 K)) (q0 q1 : Vec2 K), (∀ p ∈ Q, 0 ≤ side q0 q1 p) →
        (Q.length ≤ (pts.length - L.length - R.length) * 4 → 1 < Q.length → Q.length ≤ n) →
        ∃ h, sideOf ((pts.length - L.length - R.length) * 4) Q q0 q1 = .ok h ∧ 1 ≤ h.length := by
      intro Q q0 q1 hposQ hsz
      simp only [sideOf]
      split
      · exact ⟨_, rfl, by simp⟩
      · rename_i hle
        split
        · rename_i hc
          obtain ⟨h, e, hl⟩ := ih Q q0 q1 (hsz hc.1 hc.2) (by rintro rfl; simp at hle) hposQ
          exact ⟨h, e, by omega⟩
        · obtain ⟨X, -, -, h3⟩ := sort_stack Q q0 q1
          exact ⟨_, rfl, by rw [h3]; simp⟩
    obtain ⟨h1, e1, l1⟩ := child L p0 P hL (by omega)
    obtain ⟨h2, e2, l2⟩ := child R P p1 hR (by omega)
    exact ⟨h1 ++ h2, by rw [e1, e2]; rfl, by rw [List.length_append]; omega⟩

/-- No scan is made in a partition of at most five points. -/
theorem no_scan {pts ps : List (Vec2 K)} {p0 p1 a b : Vec2 K} (h : SortCall pts p0 p1 ps a b) :
    5 < pts.length := by
  have split_lt : ∀ (pts : List (Vec2 K)) (p0 p1 P : Vec2 K) (L R : List (Vec2 K)), cutsAt pts p0 p1 P →
      splitPoints pts P p0 p1 = (L, R) → L.length + R.length < pts.length := by
    intro pts p0 p1 P L R hP hs
    have hPm : P ∈ pts := by
      have far : ∀ (l : List (Vec2 K)) (acc : K × Option (Vec2 K)),
          (l.foldl (furthestStep p0 (p1.x - p0.x) (p1.y - p0.y)) acc).2 = some P → acc.2 = some P ∨ P ∈ l := by
        intro l
        induction l with
        | nil => intro acc h; exact Or.inl h
        | cons x l ih =>
          intro acc h
          rw [List.foldl_cons] at h
          rcases ih _ h with h | h
          · simp only [furthestStep] at h
            split at h
            · simp at h; exact Or.inr (by simp [h])
            · exact Or.inl h
          · exact Or.inr (List.mem_cons_of_mem _ h)
      rcases far _ _ hP with h | h
      · simp at h
      · exact h
    -- the two lists are filters by exclusive conditions, neither of which holds for P
    have filt : ∀ (f g : Vec2 K → Bool) (l : List (Vec2 K)), (∀ p, f p = true → g p = false) → f P = false → g P = false →
        P ∈ l → (l.filter f).length + (l.filter g).length < l.length := by
      intro f g l hfg hf hg
      have le : ∀ l : List (Vec2 K), (l.filter f).length + (l.filter g).length ≤ l.length := by
        intro l
        induction l with
        | nil => simp
        | cons x l ih =>
          rw [List.filter_cons, List.filter_cons]
          by_cases h1 : f x = true
          · rw [if_pos h1, hfg x h1]; simp; omega
          · rw [if_neg h1]
            split <;> simp <;> omega
      induction l with
      | nil => intro h; simp at h
      | cons x l ih =>
        intro hm
        rw [List.filter_cons, List.filter_cons]
        rcases List.mem_cons.mp hm with rfl | hm
        · rw [hf, hg]; have := le l; simp; omega
        · have := ih hm
          by_cases h1 : f x = true
          · rw [if_pos h1, hfg x h1]; simp; omega
          · rw [if_neg h1]
            split <;> simp <;> omega
    simp only [splitPoints] at hs
    split at hs
    · simp only [Prod.mk.injEq] at hs
      rw [← hs.1, ← hs.2]
      have := List.length_pos_of_mem hPm
      simpa using this
    · simp only [Prod.mk.injEq] at hs
      rw [← hs.1, ← hs.2]
      have z : ∀ w : Vec2 K, w.dot (P - P) = 0 := by intro w; simp [Vec2.dot]
      refine filt _ _ pts ?_ ?_ ?_ hPm
      · intro p hp; simp only [hp, Bool.not_true, Bool.false_and]
      · simp [z]
      · simp [z]
  induction h with
  | left hP hs h1 h => have := split_lt _ _ _ _ _ _ hP hs; omega
  | right hP hs h1 h => have := split_lt _ _ _ _ _ _ hP hs; omega
  | inLeft hP hs h1 h hc ih => have := split_lt _ _ _ _ _ _ hP hs; omega
  | inRight hP hs h1 h hc ih => have := split_lt _ _ _ _ _ _ hP hs; omega

/-- The first step gives its two partitions what they need. -/
theorem ctx_start {S up lo : List (Vec2 K)} {L R : Vec2 K} (hL : L ∈ S) (hR : R ∈ S) (hx : ∀ s ∈ S, L.x ≤ s.x ∧ s.x ≤ R.x)
    (hlt : L.x < R.x) (hup : ∀ v, v ∈ up ↔ v ∈ S ∧ 0 < side L R v ∧ v ≠ L ∧ v ≠ R)
    (hlo : ∀ v, v ∈ lo ↔ v ∈ S ∧ side L R v ≤ 0 ∧ v ≠ L ∧ v ≠ R) : Ctx S up L R ∧ Ctx S lo R L := by
  have flip : ∀ s, side R L s = -side L R s := by intro s; simp only [side]; ring
  have sL : Support S L R := ⟨1, 0, fun s hs => by have := (hx s hs).1; linarith, by linarith⟩
  have sR : Support S R L := ⟨-1, 0, fun s hs => by have := (hx s hs).2; linarith, by linarith⟩
  refine ⟨⟨hL, hR, fun p hp => ((hup p).mp hp).1, fun p hp => ((hup p).mp hp).2.1.le, ?_, ?_, fun _ => sL, fun _ => sR⟩,
    ⟨hR, hL, fun p hp => ((hlo p).mp hp).1, ?_, ?_, ?_, fun _ => sR, fun _ => sL⟩⟩
  · intro p hp h
    have := ((hup p).mp hp).2.1
    rw [h] at this
    exact absurd this (lt_irrefl _)
  · intro s hs h
    refine (hup s).mpr ⟨hs, h, ?_, ?_⟩
    · rintro rfl; rw [side_start] at h; exact absurd h (lt_irrefl _)
    · rintro rfl; rw [side_end] at h; exact absurd h (lt_irrefl _)
  · intro p hp; rw [flip]; have := ((hlo p).mp hp).2.1; linarith
  · intro p hp h
    obtain ⟨hpS, -⟩ := (hlo p).mp hp
    obtain ⟨b1, b2⟩ := hx p hpS
    have hw : 0 < R.x - L.x := by linarith
    refine ⟨(R.x - p.x) / (R.x - L.x), div_nonneg (by linarith) hw.le, (div_le_one hw).mpr (by linarith), ?_, ?_⟩
    · simp only
      rw [div_mul_eq_mul_div, eq_comm, ← sub_eq_zero]
      have := hw.ne'
      field_simp
      ring
    · simp only
      simp only [side] at h
      rw [div_mul_eq_mul_div, eq_comm, ← sub_eq_zero]
      have := hw.ne'
      field_simp
      linear_combination h
  · intro s hs h
    rw [flip] at h
    refine (hlo s).mpr ⟨hs, by linarith, ?_, ?_⟩
    · rintro rfl; rw [side_start] at h; simp at h
    · rintro rfl; rw [side_end] at h; simp at h

theorem spread_of_not_flat {S : List (Vec2 K)} {L R : Vec2 K} (hx : ∀ s ∈ S, L.x ≤ s.x ∧ s.x ≤ R.x) (h : ¬ Flat S) : L.x < R.x := by
  by_contra hc
  push Not at hc
  apply h
  have e : ∀ s ∈ S, s.x = L.x := fun s hs => le_antisymm ((hx s hs).2.trans hc) (hx s hs).1
  intro a ha b hb c hc'
  simp only [side]
  rw [e a ha, e b hb, e c hc']; ring

/-- Points in the hull of two points are on a line. -/
theorem flat_of_two {S : List (Vec2 K)} {L R : Vec2 K} (h : ∀ s ∈ S, InHull [L, R] s) : Flat S := by
  have on : ∀ s, InHull [L, R] s → ∃ t, s.x = L.x + t * (R.x - L.x) ∧ s.y = L.y + t * (R.y - L.y) := by
    intro s hs
    induction hs with
    | vertex v hv =>
      simp only [List.mem_cons, List.not_mem_nil, or_false] at hv
      rcases hv with rfl | rfl
      · exact ⟨0, by ring, by ring⟩
      · exact ⟨1, by ring, by ring⟩
    | between p q t _ _ _ _ ihp ihq =>
      obtain ⟨a, a1, a2⟩ := ihp
      obtain ⟨b, b1, b2⟩ := ihq
      refine ⟨a + t * (b - a), ?_, ?_⟩
      · simp only; rw [a1, b1]; ring
      · simp only; rw [a2, b2]; ring
  intro a ha b hb c hc
  obtain ⟨ta, a1, a2⟩ := on a (h a ha)
  obtain ⟨tb, b1, b2⟩ := on b (h b hb)
  obtain ⟨tc, c1, c2⟩ := on c (h c hc)
  simp only [side]
  rw [a1, a2, b1, b2, c1, c2]; ring

theorem convexHull_ok {order : List (Vec2 K) → List (Vec2 K)} {points h : List (Vec2 K)} (hq : quickHull order points = .ok h)
    (h3 : 3 ≤ h.length) : ∃ s, convexHull order points = .ok s ∧ s.verts = h := by
  obtain ⟨s, hs, hv⟩ := (C43_new h (some true) none).2 h3
  exact ⟨s, by simp only [convexHull, hq, bind, Except.bind]; exact hs, hv⟩

theorem convexHull_inv {order : List (Vec2 K) → List (Vec2 K)} {points : List (Vec2 K)} {s : Polygon K}
    (h : convexHull order points = .ok s) : quickHull order points = .ok s.verts := by
  rcases hq : quickHull order points with e | v
  · simp only [convexHull, hq, bind, Except.bind] at h; simp at h
  · simp only [convexHull, hq, bind, Except.bind] at h
    rw [(new_verts h).1]

/-- The scans of a partition, computed: for the examples. -/
def scansOf : Nat → List (Vec2 K) → Vec2 K → Vec2 K → List (List (Vec2 K) × Vec2 K × Vec2 K)
  | 0, _, _, _ => []
  | n + 1, pts, p0, p1 =>
    match (pts.foldl (furthestStep p0 (p1.x - p0.x) (p1.y - p0.y)) (-1, none)).2 with
    | none => []
    | some P =>
      let lr := splitPoints pts P p0 p1
      let mx := (pts.length - lr.1.length - lr.2.length) * 4
      (if 1 < lr.1.length then (if lr.1.length ≤ mx then scansOf n lr.1 p0 P else [(lr.1, p0, P)]) else []) ++
      (if 1 < lr.2.length then (if lr.2.length ≤ mx then scansOf n lr.2 P p1 else [(lr.2, P, p1)]) else [])

theorem mem_scansOf {pts ps : List (Vec2 K)} {p0 p1 a b : Vec2 K} (h : SortCall pts p0 p1 ps a b) : ∀ n, pts.length ≤ n →
    (ps, a, b) ∈ scansOf n pts p0 p1 := by
  have sz : ∀ (pts : List (Vec2 K)) (p0 p1 P : Vec2 K) (L R : List (Vec2 K)) (n : Nat), pts.length ≤ n + 1 →
      (1 < L.length → L.length ≤ (pts.length - L.length - R.length) * 4 → L.length ≤ n) ∧
      (1 < R.length → R.length ≤ (pts.length - L.length - R.length) * 4 → R.length ≤ n) := by
    intros; constructor <;> intros <;> omega
  induction h with
  | @left pts p0 p1 P L R hP hs h1 h =>
    intro n hn
    rcases n with _ | n
    · have : pts = [] := List.eq_nil_of_length_eq_zero (Nat.le_zero.mp hn)
      subst this; simp [cutsAt] at hP
    · simp only [cutsAt] at hP
      simp only [scansOf, hP, hs]
      rw [if_pos h1, if_neg (by omega)]
      simp
  | @right pts p0 p1 P L R hP hs h1 h =>
    intro n hn
    rcases n with _ | n
    · have : pts = [] := List.eq_nil_of_length_eq_zero (Nat.le_zero.mp hn)
      subst this; simp [cutsAt] at hP
    · simp only [cutsAt] at hP
      simp only [scansOf, hP, hs]
      apply List.mem_append_right
      rw [if_pos h1, if_neg (by omega)]
      simp
  | @inLeft pts p0 p1 P L R ps q0 q1 hP hs h1 h hc ih =>
    intro n hn
    rcases n with _ | n
    · have : pts = [] := List.eq_nil_of_length_eq_zero (Nat.le_zero.mp hn)
      subst this; simp [cutsAt] at hP
    · simp only [cutsAt] at hP
      simp only [scansOf, hP, hs]
      apply List.mem_append_left
      rw [if_pos h1, if_pos h]
      exact ih n ((sz pts p0 p1 P L R n hn).1 h1 h)
  | @inRight pts p0 p1 P L R ps q0 q1 hP hs h1 h hc ih =>
    intro n hn
    rcases n with _ | n
    · have : pts = [] := List.eq_nil_of_length_eq_zero (Nat.le_zero.mp hn)
      subst this; simp [cutsAt] at hP
    · simp only [cutsAt] at hP
      simp only [scansOf, hP, hs]
      apply List.mem_append_right
      rw [if_pos h1, if_pos h]
      exact ih n ((sz pts p0 p1 P L R n hn).2 h1 h)

end Hull

open Hull

/-- **C57** the vertices of the hull are among the points, for every order in which Python iterates its sets. -/
theorem C57_vertices (order : List (Vec2 K) → List (Vec2 K)) (hord : ∀ l, (order l).Perm l) (points : List (Vec2 K))
    (s : Polygon K) (h : convexHull order points = .ok s) : ∀ v ∈ s.verts, v ∈ points := by
  have hq := convexHull_inv h
  have hne : points ≠ [] := by rintro rfl; simp [quickHull] at hq
  obtain ⟨L, R, up, lo, hL, hR, -, hup, hlo, -, -, -, heq⟩ := quick_start hord hne
  rw [heq] at hq
  have part : ∀ (Q : List (Vec2 K)) (p0 p1 : Vec2 K) (h : List (Vec2 K)), p0 ∈ points → (∀ v ∈ Q, v ∈ points) →
      startSide Q p0 p1 = .ok h → ∀ v ∈ h, v ∈ points := by
    intro Q p0 p1 h h0 hQ he v hv
    rw [startSide] at he
    split at he
    · simp at he; rw [← he] at hv; simp at hv; rw [hv]; exact h0
    · obtain ⟨t, rfl, ht⟩ := partition_sub Q.length Q p0 p1 le_rfl h he
      rcases List.mem_cons.mp hv with rfl | hv
      · exact h0
      · exact hQ v (ht v hv)
  rcases e1 : startSide up L R with e | h1
  · simp [e1, Except.bind] at hq
  · rcases e2 : startSide lo R L with e | h2
    · simp [e1, e2, Except.bind] at hq
    · simp only [e1, e2, Except.bind, Except.ok.injEq] at hq
      intro v hv
      rw [← hq] at hv
      rcases List.mem_append.mp hv with hv | hv
      · exact part up L R h1 hL (fun v hv => ((hup v).mp hv).1) e1 v hv
      · exact part lo R L h2 hR (fun v hv => ((hlo v).mp hv).1) e2 v hv

/-- **C57** `convex_hull` builds a polygon from all points that are not on one line. -/
theorem C57_total (order : List (Vec2 K) → List (Vec2 K)) (hord : ∀ l, (order l).Perm l) (points : List (Vec2 K))
    (h : ¬ Flat points) : ∃ s, convexHull order points = .ok s := by
  have hne : points ≠ [] := by rintro rfl; apply h; intro a ha; simp at ha
  obtain ⟨L, R, up, lo, hL, hR, hx, hup, hlo, -, -, -, heq⟩ := quick_start hord hne
  have hlt := spread_of_not_flat hx h
  obtain ⟨c1, c2⟩ := ctx_start hL hR hx hlt hup hlo
  have part : ∀ (Q : List (Vec2 K)) (p0 p1 : Vec2 K), (∀ p ∈ Q, 0 ≤ side p0 p1 p) →
      ∃ h, startSide Q p0 p1 = .ok h ∧
        1 ≤ h.length ∧ (Q ≠ [] → 2 ≤ h.length) := by
    intro Q p0 p1 hpos
    rw [startSide]
    split
    · rename_i he; exact ⟨_, rfl, by simp, fun hc => absurd (List.isEmpty_iff.mp he) hc⟩
    · rename_i he
      obtain ⟨h, e, hl⟩ := partition_ok Q.length Q p0 p1 le_rfl (by rintro rfl; simp at he) hpos
      exact ⟨h, e, by omega, fun _ => hl⟩
  obtain ⟨h1, e1, l1, m1⟩ := part up L R c1.pos
  obtain ⟨h2, e2, l2, m2⟩ := part lo R L c2.pos
  have hq : quickHull order points = .ok (h1 ++ h2) := by
    rw [heq, e1, e2]; rfl
  have h3 : 3 ≤ (h1 ++ h2).length := by
    rw [List.length_append]
    by_cases hu : up = []
    · by_cases hl : lo = []
      · exfalso
        apply h
        apply flat_of_two (L := L) (R := R)
        intro s hs
        by_cases hsL : s = L
        · exact .vertex _ (by simp [hsL])
        · by_cases hsR : s = R
          · exact .vertex _ (by simp [hsR])
          · exfalso
            rcases lt_or_ge 0 (side L R s) with hp | hp
            · have := (hup s).mpr ⟨hs, hp, hsL, hsR⟩; rw [hu] at this; simp at this
            · have := (hlo s).mpr ⟨hs, hp, hsL, hsR⟩; rw [hl] at this; simp at this
      · have := m2 hl; omega
    · have := m1 hu; omega
  obtain ⟨s, hs, -⟩ := convexHull_ok hq h3
  exact ⟨s, hs⟩

/-- **C57** every point is inside or on the hull, the hull is a convex polygon with all the points on the right of its
edges, and its vertices are among the points. (Partial: the points of every sorted scan that is made are between the
perpendiculars at its ends, and none on the first one. Without this the scan can lose points: `C57_violated`.) -/
theorem C57_encloses_partial (order : List (Vec2 K) → List (Vec2 K)) (hord : ∀ l, (order l).Perm l) (points : List (Vec2 K))
    (h : ¬ Flat points) (hscan : ∀ ps a b, Scan order points ps a b → Between ps a b) :
    ∃ s, convexHull order points = .ok s ∧ (∀ v ∈ s.verts, v ∈ points) ∧ (∀ p ∈ points, InHull s.verts p) ∧
      (∀ e ∈ edges s.verts, ∀ p ∈ points, side e.1 e.2 p ≤ 0) ∧ Convex s.verts := by
  have hne : points ≠ [] := by rintro rfl; apply h; intro a ha; simp at ha
  obtain ⟨L, R, up, lo, hL, hR, hx, hup, hlo, -, -, hsc, heq⟩ := quick_start hord hne
  have hlt := spread_of_not_flat hx h
  obtain ⟨c1, c2⟩ := ctx_start hL hR hx hlt hup hlo
  have part : ∀ (Q : List (Vec2 K)) (p0 p1 : Vec2 K), Ctx points Q p0 p1 →
      (∀ ps a b, SortCall Q p0 p1 ps a b → Scan order points ps a b) →
      ∃ h, startSide Q p0 p1 = .ok h ∧
        SubHull points Q p0 p1 h := by
    intro Q p0 p1 hc hs
    rw [startSide]
    split
    · rename_i he
      have he := List.isEmpty_iff.mp he
      subst he
      refine ⟨_, rfl, subHull_nil ?_⟩
      intro s hs
      by_contra hcon
      push Not at hcon
      have := hc.all s hs hcon
      simp at this
    · rename_i he
      exact partition_spec Q.length Q p0 p1 le_rfl (by rintro rfl; simp at he) hc fun ps a b hcall => hscan ps a b (hs ps a b hcall)
  obtain ⟨h1, e1, s1⟩ := part up L R c1 fun ps a b hc => (hsc ps a b).mp (Or.inl hc)
  obtain ⟨h2, e2, s2⟩ := part lo R L c2 fun ps a b hc => (hsc ps a b).mp (Or.inr hc)
  have hq : quickHull order points = .ok (h1 ++ h2) := by
    rw [heq, e1, e2]; rfl
  have honce := once_around c1 c2 s1 s2 hlt (fun s hs => (hx s hs).1) (fun s hs => (hx s hs).2) h
  obtain ⟨s, hs⟩ := C57_total order hord points h
  have hv : s.verts = h1 ++ h2 := by
    have := convexHull_inv hs
    rw [hq] at this
    injection this with this
    exact this.symm
  obtain ⟨t1, rfl, a1, b1, d1, -⟩ := s1
  obtain ⟨t2, rfl, a2, b2, d2, -⟩ := s2
  have hin : ∀ p ∈ points, InHull s.verts p := by
    intro p hp
    rw [hv]
    by_cases hpL : p = L
    · exact .vertex _ (by simp [hpL])
    · by_cases hpR : p = R
      · exact .vertex _ (by simp [hpR])
      · rcases lt_or_ge 0 (side L R p) with hs | hs
        · refine inHull_mono ?_ (d1 p ((hup p).mpr ⟨hp, hs, hpL, hpR⟩))
          intro v hv; simp at hv ⊢; tauto
        · refine inHull_mono ?_ (d2 p ((hlo p).mpr ⟨hp, hs, hpL, hpR⟩))
          intro v hv; simp at hv ⊢; tauto
  have hright : ∀ e ∈ edges s.verts, ∀ p ∈ points, side e.1 e.2 p ≤ 0 := by
    intro e he
    rw [hv] at he
    rcases List.mem_append.mp ((edges_chains L R t1 t2).mem_iff.mp he) with he | he
    · exact a1 e he
    · exact a2 e he
  have hsub := C57_vertices order hord points s hs
  exact ⟨s, hs, hsub, hin, hright, Or.inr fun e he v hv => hright e he v (hsub v hv), by rw [hv]; exact honce⟩

/-- **C57** at most seven points, not on a line: no sorted scan is made and the hull is correct. -/
theorem C57_small (order : List (Vec2 K) → List (Vec2 K)) (hord : ∀ l, (order l).Perm l) (points : List (Vec2 K))
    (h : ¬ Flat points) (h7 : points.length ≤ 7) :
    ∃ s, convexHull order points = .ok s ∧ (∀ v ∈ s.verts, v ∈ points) ∧ (∀ p ∈ points, InHull s.verts p) ∧
      (∀ e ∈ edges s.verts, ∀ p ∈ points, side e.1 e.2 p ≤ 0) ∧ Convex s.verts := by
  apply C57_encloses_partial order hord points h
  rintro ps a b ⟨p, hp, hcall⟩
  exfalso
  obtain ⟨rest, rfl⟩ : ∃ rest, points = p :: rest := by
    rcases points with _ | ⟨q, rest⟩
    · simp at hp
    · simp at hp; exact ⟨rest, by rw [hp]⟩
  obtain ⟨hL, hR, hx⟩ := extremes_spec p rest
  have hlt := spread_of_not_flat hx h
  generalize (extremes p (p :: rest)).1 = L at *
  generalize (extremes p (p :: rest)).2 = R at *
  have hLR : L ≠ R := by rintro rfl; exact absurd hlt (lt_irrefl _)
  have small : ∀ ps : List (Vec2 K), (∀ v ∈ ps, v ∈ p :: rest) → (Hull.pySet order ps [L, R]).length ≤ 5 := by
    intro ps hps
    have hnd : (L :: R :: Hull.pySet order ps [L, R]).Nodup := by
      have hm := mem_pySet hord ps [L, R]
      refine List.nodup_cons.mpr ⟨?_, List.nodup_cons.mpr ⟨?_, pySet_nodup hord _ _⟩⟩
      · simp [hm, hLR]
      · simp [hm]
    have hsub : (L :: R :: Hull.pySet order ps [L, R]) ⊆ p :: rest := by
      intro v hv
      rcases List.mem_cons.mp hv with rfl | hv
      · exact hL
      · rcases List.mem_cons.mp hv with rfl | hv
        · exact hR
        · exact hps v ((mem_pySet hord _ _ v).mp hv).1
    have := (List.subperm_of_subset hnd hsub).length_le
    simp only [List.length_cons] at this h7
    omega
  rcases hcall with hc | hc
  · have h1 := no_scan hc
    have h2 : (upper order (p :: rest) L R).length ≤ 5 := small _ (fun v hv => (List.mem_filter.mp hv).1)
    omega
  · have h1 := no_scan hc
    have h2 : (lower order (p :: rest) L R).length ≤ 5 := small _ (fun v hv => (List.mem_filter.mp hv).1)
    omega

/-- **C57** of a polygon known to be convex, `convex_hull` is a copy. -/
theorem C57_copy (order : List (Vec2 K) → List (Vec2 K)) (s : Polygon K) (h : s.convex = some true) :
    convexHullPoly order s = .ok s.copy ∧ s.copy.verts = s.verts := by
  constructor
  · simp [convexHullPoly, h]
  · simp [Polygon.copy, Polygon.fromPoints, map_copy', cleared]

private instance : DecidableEq (Vec2 ℚ) := fun a b => decidable_of_iff (a.x = b.x ∧ a.y = b.y) Vec2.ext_iff.symm

theorem ok_of {r : Py (List (Vec2 ℚ))} {l : List (Vec2 ℚ)}
    (h : (match r with | .ok h => decide (h = l) | .error _ => false) = true) : r = .ok l := by
  rcases r with e | v
  · simp at h
  · simp at h; rw [h]

/-- The property fails in general: a sorted scan loses a point, which is then strictly outside the hull. -/
theorem C57_violated : ∃ points : List (Vec2 ℚ), ¬ Flat points ∧ ∃ s, convexHull id points = .ok s ∧
    ∃ p ∈ points, ¬ InHull s.verts p := by
  refine ⟨[⟨0, 0⟩, ⟨10, -100⟩, ⟨5, -20⟩, ⟨1/10, 1⟩, ⟨1/2, 2⟩, ⟨1/5, 3/2⟩, ⟨1, 2⟩, ⟨2, 1⟩, ⟨1/20, 3/5⟩], ?_, ?_⟩
  · intro h
    have := h ⟨0, 0⟩ (by simp) ⟨10, -100⟩ (by simp) ⟨5, -20⟩ (by simp)
    simp only [side] at this
    norm_num at this
  · have hq : quickHull id [⟨0, 0⟩, ⟨10, -100⟩, ⟨5, -20⟩, ⟨1/10, 1⟩, ⟨1/2, 2⟩, ⟨1/5, 3/2⟩, ⟨1, 2⟩, ⟨2, 1⟩, (⟨1/20, 3/5⟩ : Vec2 ℚ)] =
        .ok [⟨0, 0⟩, ⟨1/2, 2⟩, ⟨1, 2⟩, ⟨2, 1⟩, ⟨5, -20⟩, ⟨10, -100⟩] :=
      ok_of (by decide +kernel)
    obtain ⟨s, hs, hv⟩ := convexHull_ok hq (by simp)
    refine ⟨s, hs, ⟨1/10, 1⟩, by simp, ?_⟩
    intro hin
    rw [hv] at hin
    have := inHull_side (a := ⟨0, 0⟩) (b := ⟨1/2, 2⟩) hin (by
      intro v hv
      simp only [List.mem_cons, List.not_mem_nil, or_false] at hv
      rcases hv with rfl | rfl | rfl | rfl | rfl | rfl <;> simp only [side] <;> norm_num)
    simp only [side] at this
    norm_num at this

/-- Points of a parabola: two sorted scans are made, and both satisfy the hypothesis of `C57_encloses_partial`. -/
def parabola : List (Vec2 ℚ) := [⟨-6, -36⟩, ⟨-5, -25⟩, ⟨-4, -16⟩, ⟨-3, -9⟩, ⟨-2, -4⟩, ⟨-1, -1⟩, ⟨0, 0⟩, ⟨1, -1⟩, ⟨2, -4⟩, ⟨3, -9⟩, ⟨4, -16⟩, ⟨5, -25⟩, ⟨6, -36⟩]

theorem parabola_left : SortCall (upper id parabola ⟨-6, -36⟩ ⟨6, -36⟩) ⟨-6, -36⟩ ⟨6, -36⟩
    [⟨-5, -25⟩, ⟨-4, -16⟩, ⟨-3, -9⟩, ⟨-2, -4⟩, ⟨-1, -1⟩] ⟨-6, -36⟩ ⟨0, 0⟩ :=
  .left (R := [⟨1, -1⟩, ⟨2, -4⟩, ⟨3, -9⟩, ⟨4, -16⟩, ⟨5, -25⟩]) (by unfold cutsAt; decide +kernel) (by decide +kernel)
    (by decide) (by decide +kernel)

example : ¬ Flat parabola ∧ (∃ ps a b, Scan id parabola ps a b) ∧ ∀ ps a b, Scan id parabola ps a b → Between ps a b := by
  have hx : extremes ⟨-6, -36⟩ parabola = (⟨-6, -36⟩, ⟨6, -36⟩) := by decide +kernel
  refine ⟨?_, ⟨_, _, _, ⟨-6, -36⟩, rfl, Or.inl (by rw [hx]; exact parabola_left)⟩, ?_⟩
  · intro h
    have := h ⟨-6, -36⟩ (by simp [parabola]) ⟨0, 0⟩ (by simp [parabola]) ⟨6, -36⟩ (by simp [parabola])
    simp only [side] at this
    norm_num at this
  · rintro ps a b ⟨p, hp, hc⟩
    obtain rfl : ⟨-6, -36⟩ = p := by simpa [parabola] using hp
    rw [hx] at hc
    have all : ∀ c ∈ scansOf 13 (upper id parabola ⟨-6, -36⟩ ⟨6, -36⟩) ⟨-6, -36⟩ ⟨6, -36⟩ ++
        scansOf 13 (lower id parabola ⟨-6, -36⟩ ⟨6, -36⟩) ⟨6, -36⟩ ⟨-6, -36⟩,
        ∀ p ∈ c.1, 0 < lineOrder c.2.1 c.2.2 p ∧ lineOrder c.2.1 c.2.2 p ≤ lineOrder c.2.1 c.2.2 c.2.2 := by decide +kernel
    refine all (ps, a, b) ?_
    rcases hc with hc | hc
    · exact List.mem_append_left _ (mem_scansOf hc 13 (by decide +kernel))
    · exact List.mem_append_right _ (mem_scansOf hc 13 (by decide +kernel))

/-- A concrete hull: the inner point is left out. -/
example : quickHull id [⟨0, 0⟩, ⟨4, 0⟩, ⟨1, 1⟩, ⟨2, 0⟩, ⟨4, 4⟩, (⟨0, 4⟩ : Vec2 ℚ)] = .ok [⟨0, 0⟩, ⟨0, 4⟩, ⟨4, 4⟩, ⟨4, 0⟩, ⟨2, 0⟩] :=
  ok_of (by decide +kernel)

end Planar
