import Verif.Props.Hull
import Verif.Spec.HullCaps
/- C57: conditions on the points alone under which the hull is right. -/
set_option linter.unusedSectionVars false
namespace Planar
open Spec Polygon Hull
variable {K : Type} [Field K] [LinearOrder K] [IsStrictOrderedRing K]

namespace Hull

theorem lineOrder_dotAt (a b p : Vec2 K) : lineOrder a b p = dotAt a b p := by
  simp only [lineOrder, dotAt, Vec2.sub_x, Vec2.sub_y]

theorem pos_of_mul_pos_of_pos {a b : K} (ha : 0 < a) (h : 0 < a * b) : 0 < b := by
  by_contra hc
  exact absurd h (not_lt.mpr (mul_nonpos_of_nonneg_of_nonpos ha.le (not_lt.mp hc)))

/-- What is between the perpendiculars of a segment is between those of the two segments of its summit. -/
theorem facing_children {p0 p1 P p : Vec2 K} (hD : 0 < side p0 p1 P) (hP : Facing p0 p1 P) (hp : Facing p0 p1 p)
    (h0 : 0 ≤ side p0 p1 p) (hmax : side p0 p1 p ≤ side p0 p1 P) :
    (0 < side p0 P p → Facing p0 P p) ∧ (0 < side P p1 p → Facing P p1 p) := by
  have hT : 0 < dotAt p0 p1 p1 := lt_of_lt_of_le hP.1 hP.2
  have s1 : dotAt p0 p1 p1 * side p0 P p = dotAt p0 p1 P * side p0 p1 p - side p0 p1 P * dotAt p0 p1 p := by
    simp only [dotAt, side]; ring
  have s2 : dotAt p0 p1 p1 * side P p1 p = (dotAt p0 p1 p1 - dotAt p0 p1 P) * (side p0 p1 p - side p0 p1 P) +
      side p0 p1 P * (dotAt p0 p1 p - dotAt p0 p1 P) := by
    simp only [dotAt, side]; ring
  have o1 : ∀ q, dotAt p0 p1 p1 * dotAt p0 P q = dotAt p0 p1 P * dotAt p0 p1 q + side p0 p1 P * side p0 p1 q := by
    intro q; simp only [dotAt, side]; ring
  have o2 : ∀ q, dotAt p0 p1 p1 * dotAt P p1 q = (dotAt p0 p1 p1 - dotAt p0 p1 P) * (dotAt p0 p1 q - dotAt p0 p1 P) +
      side p0 p1 P * (side p0 p1 P - side p0 p1 q) := by
    intro q; simp only [dotAt, side]; ring
  have z : side p0 p1 p1 = 0 := side_end _ _
  have o1P := o1 P
  have o2p := o2 p1
  rw [z] at o2p
  have o1p := o1 p
  have o2q := o2 p
  obtain ⟨a1, a2⟩ := hP
  obtain ⟨b1, b2⟩ := hp
  generalize dotAt p0 p1 p1 = T at *
  generalize dotAt p0 p1 P = X at *
  generalize dotAt p0 p1 p = x at *
  generalize side p0 p1 P = Y at *
  generalize side p0 p1 p = y at *
  constructor
  · intro hs
    have h1 := mul_pos hT hs
    have hx : x ≤ X := by
      by_contra hc
      push Not at hc
      have e1 := mul_lt_mul_of_pos_left hc hD
      have e2 := mul_le_mul_of_nonneg_left hmax a1.le
      linarith
    refine ⟨pos_of_mul_pos_of_pos hT ?_, le_of_mul_le_mul_left (a := T) ?_ hT⟩
    · rw [o1p]; have := mul_pos a1 b1; have := mul_nonneg hD.le h0; linarith
    · rw [o1p, o1P]
      exact add_le_add (mul_le_mul_of_nonneg_left hx a1.le) (mul_le_mul_of_nonneg_left hmax hD.le)
  · intro hs
    have h1 := mul_pos hT hs
    have hx : X < x := by
      by_contra hc
      push Not at hc
      have e1 := mul_nonneg hD.le (sub_nonneg.mpr hc)
      have e2 := mul_nonneg (sub_nonneg.mpr a2) (sub_nonneg.mpr hmax)
      linarith
    refine ⟨pos_of_mul_pos_of_pos hT ?_, le_of_mul_le_mul_left (a := T) ?_ hT⟩
    · rw [o2q]
      have e1 := mul_pos (sub_pos.mpr (lt_of_lt_of_le hx b2)) (sub_pos.mpr hx)
      have e2 := mul_nonneg hD.le (sub_nonneg.mpr hmax)
      linarith
    · rw [o2q, o2p, sub_zero]
      exact add_le_add (mul_le_mul_of_nonneg_left (by linarith) (by linarith)) (mul_le_mul_of_nonneg_left (by linarith) hD.le)

/-- The summit and the two sides of a partition. -/
theorem cuts_spec {pts L R : List (Vec2 K)} {p0 p1 P : Vec2 K} (hpos : ∀ p ∈ pts, 0 ≤ side p0 p1 p) (hP : cutsAt pts p0 p1 P)
    (hs : splitPoints pts P p0 p1 = (L, R)) :
    P ∈ pts ∧ (∀ p ∈ pts, side p0 p1 p ≤ side p0 p1 P) ∧ ((L = [] ∧ R = []) ∨ 0 < side p0 p1 P ∧
      (∀ p ∈ L, p ∈ pts ∧ 0 < side p0 P p) ∧ ∀ p ∈ R, p ∈ pts ∧ 0 < side P p1 p) := by
  have hne : pts ≠ [] := by
    rintro rfl
    simp [cutsAt] at hP
  obtain ⟨P', hm, hc, hmax⟩ := furthest_spec hne hpos
  unfold cutsAt at hP
  rw [hP] at hc
  obtain rfl : P = P' := by simpa using hc
  refine ⟨hm, hmax, ?_⟩
  rcases (hpos P hm).eq_or_lt with hD | hD
  · rw [splitPoints_zero pts hD.symm] at hs
    left
    simpa [eq_comm] using hs
  · rw [splitPoints_pos pts hD] at hs
    simp only [Prod.mk.injEq] at hs
    obtain ⟨rfl, rfl⟩ := hs
    refine Or.inr ⟨hD, fun p hp => ?_, fun p hp => ?_⟩
    · simpa using hp
    · simp at hp; exact ⟨hp.1, hp.2.2⟩

/-- Scans in a set that is between the perpendiculars are of sets that are. -/
theorem between_hereditary {pts ps : List (Vec2 K)} {p0 p1 a b : Vec2 K} (h : SortCall pts p0 p1 ps a b)
    (hpos : ∀ p ∈ pts, 0 ≤ side p0 p1 p) (hb : ∀ p ∈ pts, Facing p0 p1 p) : ∀ p ∈ ps, Facing a b p := by
  induction h with
  | left hP hs h1 h =>
    obtain ⟨hm, hmax, (⟨rfl, rfl⟩ | ⟨hD, hL, hR⟩)⟩ := cuts_spec hpos hP hs
    · simp at h1
    · intro p hp
      obtain ⟨i1, i2⟩ := hL p hp
      exact (facing_children hD (hb _ hm) (hb p i1) (hpos p i1) (hmax p i1)).1 i2
  | right hP hs h1 h =>
    obtain ⟨hm, hmax, (⟨rfl, rfl⟩ | ⟨hD, hL, hR⟩)⟩ := cuts_spec hpos hP hs
    · simp at h1
    · intro p hp
      obtain ⟨i1, i2⟩ := hR p hp
      exact (facing_children hD (hb _ hm) (hb p i1) (hpos p i1) (hmax p i1)).2 i2
  | inLeft hP hs h1 h hc ih =>
    obtain ⟨hm, hmax, (⟨rfl, rfl⟩ | ⟨hD, hL, hR⟩)⟩ := cuts_spec hpos hP hs
    · simp at h1
    · refine ih (fun p hp => (hL p hp).2.le) fun p hp => ?_
      obtain ⟨i1, i2⟩ := hL p hp
      exact (facing_children hD (hb _ hm) (hb p i1) (hpos p i1) (hmax p i1)).1 i2
  | inRight hP hs h1 h hc ih =>
    obtain ⟨hm, hmax, (⟨rfl, rfl⟩ | ⟨hD, hL, hR⟩)⟩ := cuts_spec hpos hP hs
    · simp at h1
    · refine ih (fun p hp => (hR p hp).2.le) fun p hp => ?_
      obtain ⟨i1, i2⟩ := hR p hp
      exact (facing_children hD (hb _ hm) (hb p i1) (hpos p i1) (hmax p i1)).2 i2

/-- The scans on one side of the line through the extremes. -/
theorem scans_facing {points Q ps : List (Vec2 K)} {u v a b : Vec2 K} (hc : SortCall Q u v ps a b)
    (hQ : ∀ p ∈ Q, p ∈ points ∧ 0 ≤ side u v p) (hall : ∀ p ∈ points, 0 < side u v p → p ∈ Q) (hf : CapFaces points u v) :
    ∀ p ∈ ps, Facing a b p := by
  have hpos : ∀ p ∈ Q, 0 ≤ side u v p := fun p hp => (hQ p hp).2
  have summit : ∀ P, P ∈ Q → 0 < side u v P → (∀ p ∈ Q, side u v p ≤ side u v P) → Summit points u v P := by
    intro P hm hD hmax
    refine ⟨(hQ P hm).1, hD, fun p hp => ?_⟩
    rcases lt_or_ge 0 (side u v p) with h | h
    · exact hmax p (hall p hp h)
    · exact h.trans hD.le
  cases hc with
  | left hP hs h1 h =>
    obtain ⟨hm, hmax, (⟨rfl, rfl⟩ | ⟨hD, hL, hR⟩)⟩ := cuts_spec hpos hP hs
    · simp at h1
    · intro p hp
      exact (hf _ (summit _ hm hD hmax) p (hQ p (hL p hp).1).1).1 (hL p hp).2
  | right hP hs h1 h =>
    obtain ⟨hm, hmax, (⟨rfl, rfl⟩ | ⟨hD, hL, hR⟩)⟩ := cuts_spec hpos hP hs
    · simp at h1
    · intro p hp
      exact (hf _ (summit _ hm hD hmax) p (hQ p (hR p hp).1).1).2 (hR p hp).2
  | inLeft hP hs h1 h hc =>
    obtain ⟨hm, hmax, (⟨rfl, rfl⟩ | ⟨hD, hL, hR⟩)⟩ := cuts_spec hpos hP hs
    · simp at h1
    · exact between_hereditary hc (fun p hp => (hL p hp).2.le) fun p hp =>
        (hf _ (summit _ hm hD hmax) p (hQ p (hL p hp).1).1).1 (hL p hp).2
  | inRight hP hs h1 h hc =>
    obtain ⟨hm, hmax, (⟨rfl, rfl⟩ | ⟨hD, hL, hR⟩)⟩ := cuts_spec hpos hP hs
    · simp at h1
    · exact between_hereditary hc (fun p hp => (hR p hp).2.le) fun p hp =>
        (hf _ (summit _ hm hD hmax) p (hQ p (hR p hp).1).1).2 (hR p hp).2

theorem scan_between {order : List (Vec2 K) → List (Vec2 K)} (hord : ∀ l, (order l).Perm l) {points ps : List (Vec2 K)}
    {a b : Vec2 K} (hc : CapsFace points) (h : Scan order points ps a b) : Between ps a b := by
  obtain ⟨p, hp, h⟩ := h
  rcases points with _ | ⟨q, rest⟩
  · simp at hp
  obtain rfl : q = p := by simpa using hp
  obtain ⟨hL, hR, hx⟩ := extremes_spec q rest
  obtain ⟨f1, f2⟩ := hc _ _ ⟨hL, hR, hx⟩
  have hside : ∀ L R q : Vec2 K, (R.x - L.x) * (q.y - L.y) - (q.x - L.x) * (R.y - L.y) = side L R q := by
    intro L R q; simp only [side]; ring
  have anti : ∀ L R q : Vec2 K, side R L q = - side L R q := by intro L R q; simp only [side]; ring
  have key : ∀ p ∈ ps, Facing a b p := by
    rcases h with h | h
    · refine scans_facing h ?_ ?_ f1
      · intro v hv
        rw [upper, mem_pySet hord, List.mem_filter] at hv
        simp only [hside, decide_eq_true_eq, gt_iff_lt] at hv
        exact ⟨hv.1.1, hv.1.2.le⟩
      · intro v hv h0
        rw [upper, mem_pySet hord, List.mem_filter]
        simp only [hside, decide_eq_true_eq, gt_iff_lt, List.mem_cons, List.not_mem_nil, or_false, not_or]
        refine ⟨⟨List.mem_cons.mp hv, h0⟩, ?_, ?_⟩
        · rintro rfl; rw [side_start] at h0; exact lt_irrefl _ h0
        · rintro rfl; rw [side_end] at h0; exact lt_irrefl _ h0
    · refine scans_facing h ?_ ?_ f2
      · intro v hv
        rw [lower, mem_pySet hord, List.mem_filter] at hv
        simp only [hside, gt_iff_lt, Bool.not_eq_true', decide_eq_false_iff_not, not_lt] at hv
        refine ⟨hv.1.1, ?_⟩
        rw [anti]; linarith [hv.1.2]
      · intro v hv h0
        rw [lower, mem_pySet hord, List.mem_filter]
        simp only [hside, gt_iff_lt, List.mem_cons, List.not_mem_nil, or_false, not_or, Bool.not_eq_true', decide_eq_false_iff_not,
          not_lt]
        refine ⟨⟨List.mem_cons.mp hv, ?_⟩, ?_, ?_⟩
        · rw [anti] at h0; linarith
        · rintro rfl; rw [side_end] at h0; exact lt_irrefl _ h0
        · rintro rfl; rw [side_start] at h0; exact lt_irrefl _ h0
  intro p hp
  rw [lineOrder_dotAt, lineOrder_dotAt]
  exact key p hp

end Hull

/-- **C57** the hull is right for every number of points, not on a line, whose caps face: take a leftmost and a rightmost point
and a point farthest from the line through them on either side; the points beyond each of the segments from that point to the
two ends must be between the perpendiculars of that segment (not on the one at its beginning). How the points are partitioned
later and where the scans take over does not matter. (Partial: the condition; without it `C57_violated`.) -/
theorem C57_caps_partial (order : List (Vec2 K) → List (Vec2 K)) (hord : ∀ l, (order l).Perm l) (points : List (Vec2 K))
    (h : ¬ Flat points) (hc : CapsFace points) :
    ∃ s, convexHull order points = .ok s ∧ (∀ v ∈ s.verts, v ∈ points) ∧ (∀ p ∈ points, InHull s.verts p) ∧
      (∀ e ∈ edges s.verts, ∀ p ∈ points, side e.1 e.2 p ≤ 0) ∧ Convex s.verts :=
  C57_encloses_partial order hord points h fun _ _ _ hs => scan_between hord hc hs

/-- **C57** in particular when a leftmost and a rightmost point are always two points that are farthest apart of all. -/
theorem C57_wide_partial (order : List (Vec2 K) → List (Vec2 K)) (hord : ∀ l, (order l).Perm l) (points : List (Vec2 K))
    (h : ¬ Flat points)
    (hw : ∀ a b, Extremes points a b → ∀ p ∈ points, ∀ q ∈ points, dotAt p q q ≤ dotAt a b b) :
    ∃ s, convexHull order points = .ok s ∧ (∀ v ∈ s.verts, v ∈ points) ∧ (∀ p ∈ points, InHull s.verts p) ∧
      (∀ e ∈ edges s.verts, ∀ p ∈ points, side e.1 e.2 p ≤ 0) ∧ Convex s.verts := by
  refine C57_caps_partial order hord points h ?_
  have sq : ∀ u v : Vec2 K, u ≠ v → 0 < dotAt u v v := fun u v huv => by
    rw [← lineOrder_dotAt]; exact order_end_pos huv
  have cap : ∀ u v, u ∈ points → v ∈ points → (∀ p ∈ points, ∀ q ∈ points, dotAt p q q ≤ dotAt u v v) → CapFaces points u v := by
    intro u v hu hv hm c hc p hp
    have face : ∀ q ∈ points, q ≠ u → Facing u v q := by
      intro q hq hqu
      have i1 := hm q hq v hv
      have i2 := hm u hu q hq
      have i3 := sq u q (Ne.symm hqu)
      have e1 : 2 * dotAt u v q = dotAt u v v + dotAt u q q - dotAt q v v := by simp only [dotAt]; ring
      have e2 : 2 * dotAt u v v - 2 * dotAt u v q = dotAt u v v + dotAt q v v - dotAt u q q := by simp only [dotAt]; ring
      have i4 : 0 ≤ dotAt q v v := by simp only [dotAt]; exact add_nonneg (mul_self_nonneg _) (mul_self_nonneg _)
      exact ⟨by linarith, by linarith⟩
    have ne : ∀ q, 0 < side u v q → q ≠ u := by
      rintro q hq rfl; rw [side_start] at hq; exact lt_irrefl _ hq
    obtain ⟨hcm, hD, hmax⟩ := hc
    have fc := face c hcm (ne c hD)
    have hsum : side u c p + side c v p = side u v p - side u v c := by simp only [side]; ring
    have hmx := hmax p hp
    -- a point beyond either segment is on the same side as the summit
    have pos : 0 < side u c p ∨ 0 < side c v p → 0 ≤ side u v p := by
      intro hs
      by_contra hneg
      push Not at hneg
      have hT : 0 < dotAt u v v := lt_of_lt_of_le fc.1 fc.2
      have s1 : dotAt u v v * side u c p = dotAt u v c * side u v p - side u v c * dotAt u v p := by
        simp only [dotAt, side]; ring
      have s2 : dotAt u v v * side c v p = (dotAt u v v - dotAt u v c) * (side u v p - side u v c) +
          side u v c * (dotAt u v p - dotAt u v c) := by
        simp only [dotAt, side]; ring
      have hpx : 0 ≤ dotAt u v p ∧ dotAt u v p ≤ dotAt u v v := by
        by_cases hpu : p = u
        · subst hpu
          have : dotAt p v p = 0 := by simp only [dotAt]; ring
          rw [this]; exact ⟨le_rfl, hT.le⟩
        · exact ⟨(face p hp hpu).1.le, (face p hp hpu).2⟩
      rcases hs with hs | hs
      · have t1 := mul_pos hT hs
        have t2 := mul_neg_of_pos_of_neg fc.1 hneg
        have t3 := mul_nonneg hD.le hpx.1
        linarith
      · have t1 := mul_pos hT hs
        have t2 := mul_nonneg (sub_nonneg.mpr fc.2) (neg_nonneg.mpr hneg.le)
        have t3 := mul_nonneg hD.le (sub_nonneg.mpr hpx.2)
        have t4 : dotAt u v v * side c v p = (dotAt u v v - dotAt u v c) * side u v p - side u v c * (dotAt u v v - dotAt u v p) := by
          rw [s2]; ring
        linarith
    have np : 0 < side u c p ∨ 0 < side c v p → p ≠ u := by
      rintro hs rfl
      rcases hs with hs | hs
      · rw [side_start] at hs; exact lt_irrefl _ hs
      · have : side c v p = - side p v c := by simp only [side]; ring
        rw [this] at hs; linarith
    exact ⟨fun hs => (facing_children hD fc (face p hp (np (Or.inl hs))) (pos (Or.inl hs)) hmx).1 hs,
      fun hs => (facing_children hD fc (face p hp (np (Or.inr hs))) (pos (Or.inr hs)) hmx).2 hs⟩
  intro a b hab
  have h1 := hw a b hab
  have e : dotAt b a a = dotAt a b b := by simp only [dotAt]; ring
  exact ⟨cap a b hab.1 hab.2.1 h1, cap b a hab.2.1 hab.1 (by rw [e]; exact h1)⟩

/-- Points of a parabola in any order, for which two sorted scans are made, meet the hypothesis of `C57_caps_partial`, and those of a
flatter one that of `C57_wide_partial`. -/
example : ¬ Flat parabola ∧ (∃ ps a b, Scan id parabola ps a b) ∧ CapsFace parabola := by
  refine ⟨?_, ⟨_, _, _, ⟨-6, -36⟩, rfl, Or.inl (by
    rw [show extremes ⟨-6, -36⟩ parabola = (⟨-6, -36⟩, (⟨6, -36⟩ : Vec2 ℚ)) by decide +kernel]; exact parabola_left)⟩, ?_⟩
  · intro h
    have := h ⟨-6, -36⟩ (by simp [parabola]) ⟨0, 0⟩ (by simp [parabola]) ⟨6, -36⟩ (by simp [parabola])
    simp only [side] at this
    norm_num at this
  · have key : ∀ a ∈ parabola, ∀ b ∈ parabola, (∀ p ∈ parabola, a.x ≤ p.x ∧ p.x ≤ b.x) →
        (∀ c ∈ parabola, 0 < side a b c ∧ (∀ p ∈ parabola, side a b p ≤ side a b c) → ∀ p ∈ parabola,
          (0 < side a c p → 0 < dotAt a c p ∧ dotAt a c p ≤ dotAt a c c) ∧
          (0 < side c b p → 0 < dotAt c b p ∧ dotAt c b p ≤ dotAt c b b)) ∧
        (∀ c ∈ parabola, 0 < side b a c ∧ (∀ p ∈ parabola, side b a p ≤ side b a c) → ∀ p ∈ parabola,
          (0 < side b c p → 0 < dotAt b c p ∧ dotAt b c p ≤ dotAt b c c) ∧
          (0 < side c a p → 0 < dotAt c a p ∧ dotAt c a p ≤ dotAt c a a)) := by decide +kernel
    intro a b hab
    obtain ⟨k1, k2⟩ := key a hab.1 b hab.2.1 hab.2.2
    exact ⟨fun c hc => k1 c hc.1 hc.2, fun c hc => k2 c hc.1 hc.2⟩

def flatParabola : List (Vec2 ℚ) := parabola.map fun p => ⟨p.x, p.y / 12⟩

example : ¬ Flat flatParabola ∧ ∀ a b, Extremes flatParabola a b → ∀ p ∈ flatParabola, ∀ q ∈ flatParabola, dotAt p q q ≤ dotAt a b b := by
  constructor
  · intro h
    have := h ⟨-6, -3⟩ (by unfold flatParabola parabola; norm_num) ⟨0, 0⟩ (by simp [flatParabola, parabola])
      ⟨6, -3⟩ (by unfold flatParabola parabola; norm_num)
    simp only [side] at this
    norm_num at this
  · have key : ∀ a ∈ flatParabola, ∀ b ∈ flatParabola, (∀ p ∈ flatParabola, a.x ≤ p.x ∧ p.x ≤ b.x) →
      ∀ p ∈ flatParabola, ∀ q ∈ flatParabola, dotAt p q q ≤ dotAt a b b := by decide +kernel
    exact fun a b hab => key a hab.1 b hab.2.1 hab.2.2

end Planar
