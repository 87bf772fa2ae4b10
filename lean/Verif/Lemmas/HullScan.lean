import Verif.Lemmas.HullGeom
/- The sorted scan of the quick hull, when all the points are between the perpendiculars at its ends. -/
set_option linter.unusedSectionVars false
namespace Planar.Hull
open Spec
variable {K : Type} [Field K] [LinearOrder K] [IsStrictOrderedRing K]

section
variable {p0 p1 : Vec2 K}

/-- Sides in the coordinates along and across the base line. -/
theorem side_coords (a b c : Vec2 K) : lineOrder p0 p1 p1 * side a b c =
    (lineOrder p0 p1 b - lineOrder p0 p1 a) * (side p0 p1 c - side p0 p1 a) -
    (side p0 p1 b - side p0 p1 a) * (lineOrder p0 p1 c - lineOrder p0 p1 a) := by
  simp only [lineOrder, side, Vec2.sub_x, Vec2.sub_y]; ring

theorem order_start : lineOrder p0 p1 p0 = 0 := by simp only [lineOrder]; ring

theorem order_end_pos (h : p0 ≠ p1) : 0 < lineOrder p0 p1 p1 := by
  have : lineOrder p0 p1 p1 = (p1 - p0).length2 := by
    simp only [lineOrder, Vec2.length2, Vec2.sub_x, Vec2.sub_y]
  rw [this]
  apply length2_pos
  intro e
  apply h
  have hx := congrArg Vec2.x e
  have hy := congrArg Vec2.y e
  simp only [Vec2.sub_x, Vec2.sub_y, Vec2.null_x, Vec2.null_y] at hx hy
  ext
  · linear_combination -hx
  · linear_combination -hy

theorem coords_inj (hT : 0 < lineOrder p0 p1 p1) {p q : Vec2 K} (h1 : lineOrder p0 p1 p = lineOrder p0 p1 q)
    (h2 : side p0 p1 p = side p0 p1 q) : p = q := by
  simp only [lineOrder, side, Vec2.sub_x, Vec2.sub_y] at h1 h2 hT
  ext
  · apply mul_left_cancel₀ hT.ne'
    linear_combination (p1.x - p0.x) * h1 - (p1.y - p0.y) * h2
  · apply mul_left_cancel₀ hT.ne'
    linear_combination (p1.y - p0.y) * h1 + (p1.x - p0.x) * h2

/-- A point below a point of the hull and above the base is in the hull. -/
theorem inHull_below (hT : 0 < lineOrder p0 p1 p1) {ws : List (Vec2 K)} {r q : Vec2 K} (h0 : InHull ws p0) (h1 : InHull ws p1)
    (hr : InHull ws r) (ht : lineOrder p0 p1 q = lineOrder p0 p1 r) (hq : 0 ≤ side p0 p1 q)
    (hqr : side p0 p1 q ≤ side p0 p1 r) (ht0 : 0 ≤ lineOrder p0 p1 q) (ht1 : lineOrder p0 p1 q ≤ lineOrder p0 p1 p1) :
    InHull ws q := by
  rcases (hq.trans hqr).eq_or_lt with h | h
  · have : q = r := coords_inj hT ht (by linarith)
    rw [this]; exact hr
  · have et : ∀ (a b : Vec2 K) (t : K), lineOrder p0 p1 ⟨a.x + t * (b.x - a.x), a.y + t * (b.y - a.y)⟩ =
        lineOrder p0 p1 a + t * (lineOrder p0 p1 b - lineOrder p0 p1 a) := by
      intro a b t; simp only [lineOrder]; ring
    have es : ∀ (a b : Vec2 K) (t : K), side p0 p1 ⟨a.x + t * (b.x - a.x), a.y + t * (b.y - a.y)⟩ =
        side p0 p1 a + t * (side p0 p1 b - side p0 p1 a) := by
      intro a b t; simp only [side]; ring
    have z0 : side p0 p1 p0 = 0 := by simp only [side]; ring
    have z1 : side p0 p1 p1 = 0 := by simp only [side]; ring
    obtain ⟨F, hF, f1, f2⟩ : ∃ F : Vec2 K, InHull ws F ∧ lineOrder p0 p1 F = lineOrder p0 p1 q ∧ side p0 p1 F = 0 := by
      refine ⟨_, .between p0 p1 (lineOrder p0 p1 q / lineOrder p0 p1 p1) h0 h1 (div_nonneg ht0 hT.le) ((div_le_one hT).mpr ht1), ?_, ?_⟩
      · rw [et, order_start, sub_zero, div_mul_cancel₀ _ hT.ne', zero_add]
      · rw [es, z0, z1]; ring
    have hm := InHull.between F r (side p0 p1 q / side p0 p1 r) hF hr (div_nonneg hq h.le) ((div_le_one h).mpr hqr)
    have : q = ⟨F.x + side p0 p1 q / side p0 p1 r * (r.x - F.x), F.y + side p0 p1 q / side p0 p1 r * (r.y - F.y)⟩ := by
      apply coords_inj hT
      · rw [et, f1, ht]; ring
      · rw [es, f2, sub_zero, div_mul_cancel₀ _ h.ne', zero_add]
    rw [this]; exact hm

/-- Two clockwise turns of a path that does not go backwards. -/
theorem turn3 (hT : 0 < lineOrder p0 p1 p1) {x u v p : Vec2 K} (h1 : lineOrder p0 p1 x ≤ lineOrder p0 p1 u)
    (h2 : lineOrder p0 p1 u ≤ lineOrder p0 p1 v) (h3 : lineOrder p0 p1 v ≤ lineOrder p0 p1 p)
    (t1 : side x u v < 0) (t2 : side u v p < 0) : side x u p < 0 ∧ side x v p < 0 := by
  have s1 := mul_neg_of_pos_of_neg hT t1
  have s2 := mul_neg_of_pos_of_neg hT t2
  rw [side_coords] at s1 s2
  have g1 : lineOrder p0 p1 p1 * side x u p < 0 ∧ lineOrder p0 p1 p1 * side x v p < 0 := by
    rw [side_coords, side_coords]
    generalize lineOrder p0 p1 x = tx at *
    generalize lineOrder p0 p1 u = tu at *
    generalize lineOrder p0 p1 v = tv at *
    generalize lineOrder p0 p1 p = tp at *
    generalize side p0 p1 x = hx at *
    generalize side p0 p1 u = hu at *
    generalize side p0 p1 v = hv at *
    generalize side p0 p1 p = hp at *
    -- steps
    have c12 : (tu - tx) * (hv - hu) - (hu - hx) * (tv - tu) < 0 := by linarith
    have c23 : (tv - tu) * (hp - hv) - (hv - hu) * (tp - tv) < 0 := by linarith
    have c13 : (tu - tx) * (hp - hv) - (hu - hx) * (tp - tv) ≤ 0 := by
      rcases h2.eq_or_lt with e | hlt
      · subst e
        have a1 : (tu - tx) * (hv - hu) < 0 := by linarith
        have a2 : 0 < tu - tx := by
          rcases (sub_nonneg.mpr h1).eq_or_lt with h | h
          · rw [← h] at a1; simp at a1
          · exact h
        have a3 : hv - hu < 0 := by
          by_contra hc; push Not at hc; have := mul_nonneg a2.le hc; linarith
        have a4 : 0 ≤ -(hv - hu) * (tp - tu) := mul_nonneg (by linarith) (by linarith)
        linarith
      · have e : (tv - tu) * ((tu - tx) * (hp - hv) - (hu - hx) * (tp - tv)) =
          (tu - tx) * ((tv - tu) * (hp - hv) - (hv - hu) * (tp - tv)) +
          (tp - tv) * ((tu - tx) * (hv - hu) - (hu - hx) * (tv - tu)) := by ring
        have a1 : (tu - tx) * ((tv - tu) * (hp - hv) - (hv - hu) * (tp - tv)) ≤ 0 :=
          mul_nonpos_of_nonneg_of_nonpos (by linarith) c23.le
        have a2 : (tp - tv) * ((tu - tx) * (hv - hu) - (hu - hx) * (tv - tu)) ≤ 0 :=
          mul_nonpos_of_nonneg_of_nonpos (by linarith) c12.le
        by_contra hc; push Not at hc
        have := mul_pos (sub_pos.mpr hlt) hc
        linarith
    constructor
    · have : (tu - tx) * (hp - hx) - (hu - hx) * (tp - tx) = ((tu - tx) * (hv - hu) - (hu - hx) * (tv - tu)) +
        ((tu - tx) * (hp - hv) - (hu - hx) * (tp - tv)) := by ring
      linarith
    · have : (tv - tx) * (hp - hx) - (hv - hx) * (tp - tx) = ((tu - tx) * (hp - hv) - (hu - hx) * (tp - tv)) +
        ((tv - tu) * (hp - hv) - (hv - hu) * (tp - tv)) := by ring
      linarith
  have neg : ∀ z : K, lineOrder p0 p1 p1 * z < 0 → z < 0 := by
    intro z hz
    by_contra h
    push Not at h
    have := mul_nonneg hT.le h
    linarith
  exact ⟨neg _ g1.1, neg _ g1.2⟩

/-- The stack of the scan, top first. -/
inductive Chain (p0 p1 : Vec2 K) : List (Vec2 K) → Prop
  | base : Chain p0 p1 [p0]
  | one {v} (ht : 0 < lineOrder p0 p1 v) : Chain p0 p1 [v, p0]
  | more {v1 v0 u rest} (ht : lineOrder p0 p1 v0 ≤ lineOrder p0 p1 v1) (hs : side u v0 v1 < 0)
      (h : Chain p0 p1 (v0 :: u :: rest)) : Chain p0 p1 (v1 :: v0 :: u :: rest)

theorem popStack_eq (p v1 v0 : Vec2 K) (rest : List (Vec2 K)) : popStack p (v1 :: v0 :: rest) =
    if 0 ≤ side v0 v1 p then popStack p (v0 :: rest) else v1 :: v0 :: rest := by
  have : (v1.x - v0.x)*(p.y - v0.y) - (p.x - v0.x)*(v1.y - v0.y) = side v0 v1 p := by simp only [side]; ring
  rw [popStack]
  simp only [this, ge_iff_le]

theorem Chain.push {st : List (Vec2 K)} (h : Chain p0 p1 st) {p : Vec2 K} (hp : 0 < lineOrder p0 p1 p)
    (hle : ∀ v ∈ st.head?, lineOrder p0 p1 v ≤ lineOrder p0 p1 p) : Chain p0 p1 (p :: popStack p st) := by
  induction h with
  | base => simpa [popStack] using Chain.one hp
  | @one v ht =>
    rw [popStack_eq]
    split
    · simpa [popStack] using Chain.one hp
    · rename_i hs
      exact .more (hle v (by simp)) (not_le.mp hs) (.one ht)
  | @more v1 v0 u rest ht hs h ih =>
    rw [popStack_eq]
    have h1 := hle v1 (by simp)
    split
    · apply ih
      intro v hv
      simp only [List.head?_cons, Option.mem_def, Option.some.injEq] at hv
      subst hv
      exact ht.trans h1
    · rename_i hs'
      exact .more h1 (not_le.mp hs') (.more ht hs h)

/-- Nothing is lost when the stack is popped. -/
theorem Chain.keep (hT : 0 < lineOrder p0 p1 p1) {st : List (Vec2 K)} (h : Chain p0 p1 st) {p : Vec2 K}
    (hp : 0 < lineOrder p0 p1 p) (hpT : lineOrder p0 p1 p ≤ lineOrder p0 p1 p1)
    (hle : ∀ v ∈ st.head?, lineOrder p0 p1 v ≤ lineOrder p0 p1 p) (hh : ∀ v ∈ st, 0 ≤ side p0 p1 v)
    (ws : List (Vec2 K)) (h0 : InHull ws p0) (h1 : InHull ws p1) (hw : ∀ v ∈ p :: popStack p st, InHull ws v) :
    ∀ v ∈ st, InHull ws v := by
  have popped : ∀ v1 v0 : Vec2 K, InHull ws v0 → 0 ≤ side v0 v1 p → 0 ≤ side p0 p1 v1 →
      0 ≤ lineOrder p0 p1 v0 → lineOrder p0 p1 v0 ≤ lineOrder p0 p1 v1 → lineOrder p0 p1 v1 ≤ lineOrder p0 p1 p →
      (lineOrder p0 p1 v0 = lineOrder p0 p1 p → side p0 p1 v1 ≤ side p0 p1 v0) → InHull ws v1 := by
    intro v1 v0 hv0 hs hh1 ht0 ht01 ht1 heq
    rcases (ht01.trans ht1).eq_or_lt with e | hlt
    · exact inHull_below hT h0 h1 hv0 (by linarith) hh1 (heq e) (ht0.trans ht01) (ht1.trans hpT)
    · have hP := hw p (by simp)
      have hd : 0 < lineOrder p0 p1 p - lineOrder p0 p1 v0 := by linarith
      have hm := InHull.between v0 p ((lineOrder p0 p1 v1 - lineOrder p0 p1 v0) / (lineOrder p0 p1 p - lineOrder p0 p1 v0))
        hv0 hP (div_nonneg (by linarith) hd.le) ((div_le_one hd).mpr (by linarith))
      have et : ∀ (a b : Vec2 K) (t : K), lineOrder p0 p1 ⟨a.x + t * (b.x - a.x), a.y + t * (b.y - a.y)⟩ =
        lineOrder p0 p1 a + t * (lineOrder p0 p1 b - lineOrder p0 p1 a) := by
        intro a b t; simp only [lineOrder]; ring
      have es : ∀ (a b : Vec2 K) (t : K), side p0 p1 ⟨a.x + t * (b.x - a.x), a.y + t * (b.y - a.y)⟩ =
        side p0 p1 a + t * (side p0 p1 b - side p0 p1 a) := by
        intro a b t; simp only [side]; ring
      refine inHull_below hT h0 h1 hm ?_ hh1 ?_ (ht0.trans ht01) (ht1.trans hpT)
      · rw [et, div_mul_cancel₀ _ hd.ne']; ring
      · rw [es]
        have s1 := mul_nonneg hT.le hs
        rw [side_coords] at s1
        have : (side p0 p1 v1 - side p0 p1 v0) ≤ (lineOrder p0 p1 v1 - lineOrder p0 p1 v0) /
            (lineOrder p0 p1 p - lineOrder p0 p1 v0) * (side p0 p1 p - side p0 p1 v0) := by
          rw [div_mul_eq_mul_div, le_div_iff₀ hd]; linarith
        linarith
  induction h with
  | base => intro v hv; rw [List.mem_singleton.mp hv]; exact h0
  | @one v ht =>
    intro x hx
    rw [popStack_eq] at hw
    split at hw
    · rename_i hs
      rcases List.mem_cons.mp hx with rfl | hx
      · exact popped x p0 h0 hs (hh x (by simp)) (by rw [order_start]) (by rw [order_start]; exact ht.le)
          (hle x (by simp)) (by rw [order_start]; intro e; rw [← e] at hp; exact absurd hp (lt_irrefl _))
      · rw [List.mem_singleton.mp hx]; exact h0
    · exact hw x (List.mem_cons_of_mem _ hx)
  | @more v1 v0 u rest ht hs h ih =>
    intro x hx
    have hle1 := hle v1 (by simp)
    rw [popStack_eq] at hw
    split at hw
    · rename_i hs'
      have ih' := ih (by
        intro v hv
        simp only [List.head?_cons, Option.mem_def, Option.some.injEq] at hv
        subst hv
        exact ht.trans hle1) (fun v hv => hh v (List.mem_cons_of_mem _ hv)) hw
      rcases List.mem_cons.mp hx with rfl | hx
      · have hmono : 0 ≤ lineOrder p0 p1 u ∧ lineOrder p0 p1 u ≤ lineOrder p0 p1 v0 := by
          have : ∀ st : List (Vec2 K), Chain p0 p1 st → ∀ a ∈ st.head?, 0 ≤ lineOrder p0 p1 a := by
            intro st hc
            induction hc with
            | base => simp [order_start]
            | one h => intro a ha; simp at ha; subst ha; exact h.le
            | more h1 _ _ ih => intro a ha; simp at ha; subst ha; exact (ih _ (by simp)).trans h1
          cases h with
          | one h => rw [order_start]; exact ⟨le_rfl, h.le⟩
          | more h1 _ h2 => exact ⟨this _ h2 _ (by simp), h1⟩
        refine popped x v0 (ih' v0 (by simp)) hs' (hh x (by simp)) (hmono.1.trans hmono.2) ht hle1 ?_
        intro e
        have s1 := mul_neg_of_pos_of_neg hT hs
        rw [side_coords] at s1
        have e1 : lineOrder p0 p1 x = lineOrder p0 p1 v0 := by linarith
        rw [e1] at s1
        by_contra hc
        push Not at hc
        have := mul_nonneg (sub_nonneg.mpr hmono.2) (sub_nonneg.mpr hc.le)
        linarith
      · exact ih' x hx
    · exact hw x (List.mem_cons_of_mem _ hx)

/-- The edges of a stack, top first. -/
def pairs : List (Vec2 K) → List (Vec2 K × Vec2 K)
  | b :: a :: rest => (a, b) :: pairs (a :: rest)
  | _ => []

/-- Later points are on the right of every edge of the chain, and earlier vertices on the right of the next edge. -/
theorem Chain.ahead (hT : 0 < lineOrder p0 p1 p1) {v0 u : Vec2 K} {rest : List (Vec2 K)}
    (h : Chain p0 p1 (v0 :: u :: rest)) {p : Vec2 K} (hle : lineOrder p0 p1 v0 ≤ lineOrder p0 p1 p)
    (hs : side u v0 p < 0) : (∀ e ∈ pairs (v0 :: u :: rest), side e.1 e.2 p < 0) ∧ ∀ x ∈ u :: rest, side x v0 p < 0 := by
  have gen : ∀ st : List (Vec2 K), Chain p0 p1 st → ∀ v0 u rest, st = v0 :: u :: rest → ∀ p : Vec2 K,
      lineOrder p0 p1 v0 ≤ lineOrder p0 p1 p → side u v0 p < 0 →
      (∀ e ∈ pairs st, side e.1 e.2 p < 0) ∧ (∀ x ∈ u :: rest, side x v0 p < 0) ∧
      ∀ x ∈ st, lineOrder p0 p1 x ≤ lineOrder p0 p1 v0 := by
    intro st hc
    induction hc with
    | base => intro v0 u rest e; cases e
    | @one v ht =>
      intro v0 u rest e p hle hs
      cases e
      refine ⟨?_, ?_, ?_⟩
      · intro e he; simp only [pairs, List.mem_singleton] at he; subst he; exact hs
      · intro x hx; rw [List.mem_singleton.mp hx]; exact hs
      · intro x hx
        simp only [List.mem_cons, List.not_mem_nil, or_false] at hx
        rcases hx with rfl | rfl
        · exact le_rfl
        · rw [order_start]; exact ht.le
    | @more v1 v0' w rest' ht hs' h ih =>
      intro v0 u rest e p hle hs
      cases e
      obtain ⟨i1, i2, i3⟩ := ih v0' w rest' rfl v1 ht hs'
      have hw : lineOrder p0 p1 w ≤ lineOrder p0 p1 v0' := i3 w (by simp)
      obtain ⟨j1, -, -⟩ := ih v0' w rest' rfl p (ht.trans hle) (turn3 hT hw ht hle hs' hs).1
      refine ⟨?_, ?_, ?_⟩
      · intro e he
        rw [pairs] at he
        rcases List.mem_cons.mp he with rfl | he
        · exact hs
        · exact j1 e he
      · intro x hx
        rcases List.mem_cons.mp hx with rfl | hx
        · exact hs
        · exact (turn3 hT (i3 x (List.mem_cons_of_mem _ hx)) ht hle (i2 x hx) hs).2
      · intro x hx
        rcases List.mem_cons.mp hx with rfl | hx
        · exact le_rfl
        · exact (i3 x hx).trans ht
  have := gen _ h v0 u rest rfl p hle hs
  exact ⟨this.1, this.2.1⟩

/-- All the vertices of the chain are on the right of all its edges. -/
theorem Chain.convex (hT : 0 < lineOrder p0 p1 p1) {st : List (Vec2 K)} (h : Chain p0 p1 st) :
    ∀ e ∈ pairs st, ∀ x ∈ st, side e.1 e.2 x ≤ 0 := by
  have z1 : ∀ a b : Vec2 K, side a b a = 0 := by intro a b; simp only [side]; ring
  have z2 : ∀ a b : Vec2 K, side a b b = 0 := by intro a b; simp only [side]; ring
  have cyc : ∀ a b c : Vec2 K, side a b c = side c a b := by intro a b c; simp only [side]; ring
  induction h with
  | base => intro e he; simp [pairs] at he
  | @one v ht =>
    intro e he x hx
    simp only [pairs, List.mem_singleton] at he
    subst he
    simp only [List.mem_cons, List.not_mem_nil, or_false] at hx
    rcases hx with rfl | rfl
    · rw [z2]
    · rw [z1]
  | @more v1 v0 u rest ht hs h ih =>
    obtain ⟨a1, a2⟩ := h.ahead hT ht hs
    intro e he x hx
    rw [pairs] at he
    rcases List.mem_cons.mp he with rfl | he'
    · simp only
      rcases List.mem_cons.mp hx with rfl | hx
      · rw [z2]
      · rcases List.mem_cons.mp hx with rfl | hx
        · rw [z1]
        · rw [cyc]; exact (a2 x hx).le
    · rcases List.mem_cons.mp hx with rfl | hx
      · exact (a1 e he').le
      · exact ih e he' x hx

end
end Planar.Hull
