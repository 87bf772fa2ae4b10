import Verif.Lemmas.HullGeom
import Verif.Lemmas.WindConst
import Verif.Model.Tangents
import Verif.Props.PolyEq
/- Tangents: separating a point from a polygon, and the linear scan. -/
set_option linter.unusedSectionVars false
namespace Planar
open Spec
variable {K : Type} [Field K] [LinearOrder K] [IsStrictOrderedRing K]

/-! ### a point outside the hull is separated from it -/

theorem small_eps {α : Type} (s t : α → K) (l : List α) (h : ∀ v ∈ l, 0 < s v) :
    ∃ ε : K, 0 < ε ∧ ∀ v ∈ l, 0 < s v + ε * t v := by
  induction l with
  | nil => exact ⟨1, one_pos, by simp⟩
  | cons v l ih =>
    obtain ⟨ε, he, hl⟩ := ih fun v hv => h v (by simp [hv])
    have hs := h v (by simp)
    have hden : 0 < |t v| + 1 := by positivity
    refine ⟨min ε (s v / (|t v| + 1)), lt_min he (div_pos hs hden), ?_⟩
    have hm : 0 < min ε (s v / (|t v| + 1)) := lt_min he (div_pos hs hden)
    intro w hw
    rcases List.mem_cons.mp hw with rfl | hw
    · have h1 : min ε (s w / (|t w| + 1)) * (|t w| + 1) ≤ s w := (le_div_iff₀ hden).mp (min_le_right _ _)
      have h2 := mul_le_mul_of_nonneg_left (neg_abs_le (t w)) hm.le
      nlinarith
    · have h1 := hl w hw
      have h2 := h w (by simp [hw])
      rcases le_total 0 (t w) with h3 | h3
      · have := mul_nonneg hm.le h3; linarith
      · have := mul_le_mul_of_nonpos_right (min_le_left ε (s v / (|t v| + 1))) h3; linarith

theorem hull_of_balance {vs : List (Vec2 K)} {p u v w : Vec2 K} (hu : u ∈ vs) (hv : v ∈ vs) (hw : w ∈ vs) {a b c : K}
    (ha : 0 ≤ a) (hb : 0 ≤ b) (hc : 0 ≤ c) (hs : 0 < a + b + c)
    (hx : a * (u.x - p.x) + b * (v.x - p.x) + c * (w.x - p.x) = 0)
    (hy : a * (u.y - p.y) + b * (v.y - p.y) + c * (w.y - p.y) = 0) : InHull vs p := by
  refine inHull_triangle (u := a / (a + b + c)) (v := b / (a + b + c)) (.vertex w hw) (.vertex u hu) (.vertex v hv)
    (div_nonneg ha hs.le) (div_nonneg hb hs.le) ?_ ?_ ?_
  · rw [← add_div, div_le_one hs]; linarith
  · have := hs.ne'; field_simp; linear_combination -hx
  · have := hs.ne'; field_simp; linear_combination -hy

/-- A point outside the convex hull lies strictly on one side of a line with all the vertices strictly on the other. -/
theorem separate {vs : List (Vec2 K)} {p : Vec2 K} (hne : vs ≠ []) (hp : ¬ InHull vs p) :
    ∃ a b : K, ∀ v ∈ vs, 0 < a * (v.x - p.x) + b * (v.y - p.y) := by
  induction vs with
  | nil => exact absurd rfl hne
  | cons w l ih =>
    have hW : 0 < (w.x - p.x) * (w.x - p.x) + (w.y - p.y) * (w.y - p.y) := by
      rcases (add_nonneg (mul_self_nonneg (w.x - p.x)) (mul_self_nonneg (w.y - p.y))).eq_or_lt with h | h
      · exfalso
        obtain ⟨h1, h2⟩ := (add_eq_zero_iff_of_nonneg (mul_self_nonneg _) (mul_self_nonneg _)).mp h.symm
        have : p = w := Vec2.ext (by linarith [mul_self_eq_zero.mp h1]) (by linarith [mul_self_eq_zero.mp h2])
        exact hp (by rw [this]; exact .vertex w (by simp))
      · exact h
    by_cases hl : l = []
    · subst hl
      exact ⟨w.x - p.x, w.y - p.y, by simpa using hW⟩
    obtain ⟨a, b, hab⟩ := ih hl fun h => hp (inHull_mono (by simp +contextual) h)
    by_cases hw : 0 < a * (w.x - p.x) + b * (w.y - p.y)
    · exact ⟨a, b, fun v hv => by rcases List.mem_cons.mp hv with rfl | hv; exacts [hw, hab v hv]⟩
    push Not at hw
    by_cases hpos : ∀ v ∈ l, 0 < side p w v
    · obtain ⟨ε, he, h⟩ := small_eps (side p w) (fun v => (w.x - p.x) * (v.x - p.x) + (w.y - p.y) * (v.y - p.y)) l hpos
      refine ⟨-(w.y - p.y) + ε * (w.x - p.x), (w.x - p.x) + ε * (w.y - p.y), ?_⟩
      intro v hv
      rcases List.mem_cons.mp hv with rfl | hv
      · have := mul_pos he hW; linarith
      · have := h v hv; simp only [side] at this; linarith
    by_cases hneg : ∀ v ∈ l, 0 < -side p w v
    · obtain ⟨ε, he, h⟩ := small_eps (fun v => -side p w v)
        (fun v => (w.x - p.x) * (v.x - p.x) + (w.y - p.y) * (v.y - p.y)) l hneg
      refine ⟨(w.y - p.y) + ε * (w.x - p.x), -(w.x - p.x) + ε * (w.y - p.y), ?_⟩
      intro v hv
      rcases List.mem_cons.mp hv with rfl | hv
      · have := mul_pos he hW; linarith
      · have := h v hv; simp only [side] at this; linarith
    exfalso
    push Not at hpos hneg
    obtain ⟨u, hu, hu'⟩ := hpos
    obtain ⟨v, hv, hv'⟩ := hneg
    have key : ∀ α β : K, 0 ≤ α → 0 ≤ β → 0 < α + β → α * side p w u + β * side p w v = 0 → False := by
      intro α β h1 h2 h3 h4
      apply hp
      obtain ⟨X, hX⟩ : ∃ X, X = α * (u.x - p.x) + β * (v.x - p.x) := ⟨_, rfl⟩
      obtain ⟨Y, hY⟩ : ∃ Y, Y = α * (u.y - p.y) + β * (v.y - p.y) := ⟨_, rfl⟩
      obtain ⟨N, hN⟩ : ∃ N, N = (w.x - p.x) * (w.x - p.x) + (w.y - p.y) * (w.y - p.y) := ⟨_, rfl⟩
      rw [← hN] at hW
      obtain ⟨t, ht⟩ : ∃ t, t = (X * (w.x - p.x) + Y * (w.y - p.y)) / N := ⟨_, rfl⟩
      have c0 : (w.x - p.x) * Y - (w.y - p.y) * X = 0 := by
        rw [hX, hY, ← h4]; simp only [side]; ring
      have e1 : X = t * (w.x - p.x) := by
        rw [ht]; field_simp; rw [hN]; linear_combination -(w.y - p.y) * c0
      have e2 : Y = t * (w.y - p.y) := by
        rw [ht]; field_simp; rw [hN]; linear_combination (w.x - p.x) * c0
      have hφ : 0 < a * X + b * Y := by
        have q1 := hab u hu
        have q2 := hab v hv
        have : a * X + b * Y = α * (a * (u.x - p.x) + b * (u.y - p.y)) + β * (a * (v.x - p.x) + b * (v.y - p.y)) := by
          rw [hX, hY]; ring
        rw [this]
        rcases h1.eq_or_lt with h | h
        · rw [← h] at h3 ⊢
          have := mul_pos (show 0 < β by linarith) q2
          linarith
        · have := mul_pos h q1
          have := mul_nonneg h2 q2.le
          linarith
      have ht0 : t ≤ 0 := by
        by_contra hc
        push Not at hc
        have : a * X + b * Y = t * (a * (w.x - p.x) + b * (w.y - p.y)) := by rw [e1, e2]; ring
        have := mul_nonneg hc.le (neg_nonneg.mpr hw)
        linarith
      refine hull_of_balance (u := u) (v := v) (w := w) (by simp [hu]) (by simp [hv]) (by simp) h1 h2 (neg_nonneg.mpr ht0)
        (by linarith) ?_ ?_
      · rw [← hX, e1]; ring
      · rw [← hY, e2]; ring
    by_cases h0 : side p w u = 0
    · exact key 1 0 zero_le_one le_rfl (by simp) (by rw [h0]; ring)
    · exact key (side p w v) (-side p w u) (by linarith) (by linarith)
        (by have := lt_of_le_of_ne hu' h0; linarith) (by ring)

/-- The directions from an exterior point to the vertices are ordered by one number. -/
theorem slope {vs : List (Vec2 K)} {p : Vec2 K} (hne : vs ≠ []) (hp : ¬ InHull vs p) :
    ∃ F : Vec2 K → K, ∀ u ∈ vs, ∀ v ∈ vs, 0 < Polygon.turn p u v ↔ F u < F v := by
  obtain ⟨a, b, hab⟩ := separate hne hp
  refine ⟨fun v => (a * (v.y - p.y) - b * (v.x - p.x)) / (a * (v.x - p.x) + b * (v.y - p.y)), ?_⟩
  intro u hu v hv
  have h1 := hab u hu
  have h2 := hab v hv
  have hN : 0 < a * a + b * b := by
    rcases (add_nonneg (mul_self_nonneg a) (mul_self_nonneg b)).eq_or_lt with h | h
    · obtain ⟨q1, q2⟩ := (add_eq_zero_iff_of_nonneg (mul_self_nonneg _) (mul_self_nonneg _)).mp h.symm
      rw [mul_self_eq_zero.mp q1, mul_self_eq_zero.mp q2] at h1
      linarith
    · exact h
  simp only
  rw [div_lt_div_iff₀ h1 h2]
  have : (a * (v.y - p.y) - b * (v.x - p.x)) * (a * (u.x - p.x) + b * (u.y - p.y)) -
      (a * (u.y - p.y) - b * (u.x - p.x)) * (a * (v.x - p.x) + b * (v.y - p.y)) = (a * a + b * b) * Polygon.turn p u v := by
    simp only [Polygon.turn]; ring
  rw [← mul_pos_iff_of_pos_left hN, ← this, sub_pos]

namespace Polygon

theorem turn_swap (p u v : Vec2 K) : turn p v u = -turn p u v := by simp only [turn]; ring
theorem turn_eq_side (p u v : Vec2 K) : turn p u v = side p u v := by simp only [turn, side]; ring
theorem turn_eq_side' (p u v : Vec2 K) : turn p u v = side u v p := by simp only [turn, side]; ring

/-! ### the linear scan -/

theorem loop_mem (p : Vec2 K) (rest : List (Vec2 K)) (v0 : Vec2 K) (pt : K) (l r : Vec2 K) :
    let res := tangentsLoop p rest v0 pt l r
    (res.1 = l ∨ res.1 ∈ v0 :: rest) ∧ (res.2 = r ∨ res.2 ∈ v0 :: rest) := by
  induction rest generalizing v0 pt l r with
  | nil => exact ⟨Or.inl rfl, Or.inl rfl⟩
  | cons v1 rest ih =>
    simp only [tangentsLoop, Vec2.copy_eq]
    split_ifs
    · have := ih v1 (turn p v0 v1) l v0; simp only at this ⊢; grind
    · have := ih v1 (turn p v0 v1) l r; simp only at this ⊢; grind
    · have := ih v1 (turn p v0 v1) v0 r; simp only at this ⊢; grind
    · have := ih v1 (turn p v0 v1) l r; simp only at this ⊢; grind
    · have := ih v1 (turn p v0 v1) l r; simp only at this ⊢; grind

/-- One step of the loop. -/
theorem loop_step (p v1 : Vec2 K) (rest : List (Vec2 K)) (v0 : Vec2 K) (pt : K) (l r : Vec2 K) :
    ∃ l' r', tangentsLoop p (v1 :: rest) v0 pt l r = tangentsLoop p rest v1 (turn p v0 v1) l' r' ∧
      (r' = if pt ≤ 0 ∧ 0 < turn p v0 v1 ∧ 0 ≤ turn p v0 r then v0 else r) ∧
      (l' = if 0 < pt ∧ turn p v0 v1 ≤ 0 ∧ turn p v0 l ≤ 0 then v0 else l) := by
  have e : ∀ q : Vec2 K, (v0.x - p.x) * (q.y - p.y) - (q.x - p.x) * (v0.y - p.y) = turn p v0 q := by
    intro q; simp only [turn]; ring
  simp only [tangentsLoop, Vec2.copy_eq, e]
  by_cases h1 : pt ≤ 0 ∧ turn p v0 v1 > 0
  · rw [if_pos h1]
    refine ⟨_, _, rfl, ?_, ?_⟩
    · simp [h1.1, h1.2]
    · simp [not_lt.mpr h1.1]
  · rw [if_neg h1]
    have hr : ¬ (pt ≤ 0 ∧ 0 < turn p v0 v1 ∧ 0 ≤ turn p v0 r) := fun h => h1 ⟨h.1, h.2.1⟩
    by_cases h2 : pt > 0 ∧ turn p v0 v1 ≤ 0
    · rw [if_pos h2]
      refine ⟨_, _, rfl, ?_, ?_⟩
      · rw [if_neg hr]
      · simp [h2.1, h2.2]
    · rw [if_neg h2]
      have hl : ¬ (0 < pt ∧ turn p v0 v1 ≤ 0 ∧ turn p v0 l ≤ 0) := fun h => h2 ⟨h.1, h.2.1⟩
      exact ⟨_, _, rfl, by rw [if_neg hr], by rw [if_neg hl]⟩

/-- What the loop keeps: for each vertex seen, the right tangent is no higher than it, or the boundary is going down
and already no higher than it. -/
theorem loop_right {vs : List (Vec2 K)} {p : Vec2 K} {F : Vec2 K → K}
    (hF : ∀ u ∈ vs, ∀ v ∈ vs, 0 < turn p u v ↔ F u < F v) (rest : List (Vec2 K)) (v0 : Vec2 K) (pt : K) (l r : Vec2 K)
    (seen : Vec2 K → Prop) (hrest : ∀ v ∈ rest, v ∈ vs) (h0 : v0 ∈ vs) (hr : r ∈ vs)
    (hs : ∀ x, seen x → F r ≤ F x ∨ (pt ≤ 0 ∧ F v0 ≤ F x)) (hup : 0 < pt → F r ≤ F v0) :
    let res := (tangentsLoop p rest v0 pt l r).2
    F res ≤ F r ∧ ∀ x, (seen x ∨ x ∈ rest) →
      F res ≤ F x ∨ (F ((v0 :: rest).getLast (by simp)) ≤ F x ∧
        ∀ q, [q, (v0 :: rest).getLast (by simp)] <:+ v0 :: rest → turn p q ((v0 :: rest).getLast (by simp)) ≤ 0) := by
  induction rest generalizing v0 pt l r seen with
  | nil =>
    refine ⟨le_rfl, ?_⟩
    intro x hx
    rcases hs x (by simpa using hx) with h | h
    · exact Or.inl h
    · right
      refine ⟨h.2, ?_⟩
      intro q hq
      have := hq.length_le
      simp at this
  | cons v1 rest ih =>
    obtain ⟨l', r', he, hr', -⟩ := loop_step p v1 rest v0 pt l r
    have h1 : v1 ∈ vs := hrest v1 (by simp)
    have hle : ∀ u ∈ vs, ∀ v ∈ vs, turn p u v ≤ 0 ↔ F v ≤ F u := fun u hu v hv => by
      rw [← not_lt, hF u hu v hv, not_lt]
    have hge : ∀ u ∈ vs, ∀ v ∈ vs, 0 ≤ turn p u v ↔ F u ≤ F v := fun u hu v hv => by
      rw [← hle v hv u hu, turn_swap p u v, neg_nonpos]
    have mr : r' ∈ vs := by rw [hr']; split_ifs <;> assumption
    have fr : F r' ≤ F r := by
      rw [hr']; split_ifs with h
      · exact (hge _ h0 _ hr).mp h.2.2
      · exact le_rfl
    have fr0 : pt ≤ 0 → 0 < turn p v0 v1 → F r' ≤ F v0 := by
      intro g1 g2
      rw [hr']; split_ifs with h
      · exact le_rfl
      · have : ¬ 0 ≤ turn p v0 r := fun g3 => h ⟨g1, g2, g3⟩
        rw [hge _ h0 _ hr] at this
        exact (not_le.mp this).le
    have fr1 : 0 < turn p v0 v1 → F r' ≤ F v1 := by
      intro g
      have g' := (hF _ h0 _ h1).mp g
      rcases le_or_gt pt 0 with h | h
      · exact (fr0 h g).trans g'.le
      · exact fr.trans ((hup h).trans g'.le)
    have := ih v1 (turn p v0 v1) l' r' (fun x => seen x ∨ x = v1) (fun v hv => hrest v (by simp [hv])) h1 mr (by
        rintro x (hx | rfl)
        · rcases hs x hx with h | ⟨h, h'⟩
          · exact Or.inl (fr.trans h)
          · rcases le_or_gt (turn p v0 v1) 0 with g | g
            · exact Or.inr ⟨g, ((hle _ h0 _ h1).mp g).trans h'⟩
            · exact Or.inl ((fr0 h g).trans h')
        · rcases le_or_gt (turn p v0 x) 0 with g | g
          · exact Or.inr ⟨g, le_rfl⟩
          · exact Or.inl (fr1 g)) fr1
    simp only at this ⊢
    rw [he]
    refine ⟨this.1.trans fr, ?_⟩
    intro x hx
    by_cases hres : F (tangentsLoop p rest v1 (turn p v0 v1) l' r').2 ≤ F x
    · exact Or.inl hres
    right
    have hlast : (v0 :: v1 :: rest).getLast (by simp) = (v1 :: rest).getLast (by simp) := List.getLast_cons _
    rcases this.2 x (by simp only [List.mem_cons] at hx; tauto) with h | ⟨g1, g2⟩
    · exact absurd h hres
    rw [hlast]
    refine ⟨g1, ?_⟩
    intro q hq
    rcases List.suffix_cons_iff.mp hq with h | h
    · -- the last edge is (v0, v1)
      injection h with h h'
      subst h
      have hrn : rest = [] := by
        injection h' with h h''
        exact h''.symm
      subst hrn
      simp only [List.getLast_singleton]
      by_contra hc
      apply hres
      have := fr1 (not_le.mp hc)
      simp only [tangentsLoop]
      exact this.trans (by simpa using g1)
    · exact g2 q h

/-- The same for the left tangent. -/
theorem loop_left {vs : List (Vec2 K)} {p : Vec2 K} {F : Vec2 K → K}
    (hF : ∀ u ∈ vs, ∀ v ∈ vs, 0 < turn p u v ↔ F u < F v) (rest : List (Vec2 K)) (v0 : Vec2 K) (pt : K) (l r : Vec2 K)
    (seen : Vec2 K → Prop) (hrest : ∀ v ∈ rest, v ∈ vs) (h0 : v0 ∈ vs) (hl : l ∈ vs)
    (hs : ∀ x, seen x → F x ≤ F l ∨ (0 < pt ∧ F x ≤ F v0)) (hup : pt ≤ 0 → F v0 ≤ F l) :
    let res := (tangentsLoop p rest v0 pt l r).1
    F l ≤ F res ∧ ∀ x, (seen x ∨ x ∈ rest) →
      F x ≤ F res ∨ (F x ≤ F ((v0 :: rest).getLast (by simp)) ∧
        ∀ q, [q, (v0 :: rest).getLast (by simp)] <:+ v0 :: rest → 0 < turn p q ((v0 :: rest).getLast (by simp))) := by
  induction rest generalizing v0 pt l r seen with
  | nil =>
    refine ⟨le_rfl, ?_⟩
    intro x hx
    rcases hs x (by simpa using hx) with h | h
    · exact Or.inl h
    · right
      refine ⟨h.2, ?_⟩
      intro q hq
      have := hq.length_le
      simp at this
  | cons v1 rest ih =>
    obtain ⟨l', r', he, -, hl'⟩ := loop_step p v1 rest v0 pt l r
    have h1 : v1 ∈ vs := hrest v1 (by simp)
    have hle : ∀ u ∈ vs, ∀ v ∈ vs, turn p u v ≤ 0 ↔ F v ≤ F u := fun u hu v hv => by
      rw [← not_lt, hF u hu v hv, not_lt]
    have ml : l' ∈ vs := by rw [hl']; split_ifs <;> assumption
    have fl : F l ≤ F l' := by
      rw [hl']; split_ifs with h
      · exact (hle _ h0 _ hl).mp h.2.2
      · exact le_rfl
    have fl0 : 0 < pt → turn p v0 v1 ≤ 0 → F v0 ≤ F l' := by
      intro g1 g2
      rw [hl']; split_ifs with h
      · exact le_rfl
      · have : ¬ turn p v0 l ≤ 0 := fun g3 => h ⟨g1, g2, g3⟩
        rw [hle _ h0 _ hl] at this
        exact (not_le.mp this).le
    have fl1 : turn p v0 v1 ≤ 0 → F v1 ≤ F l' := by
      intro g
      have g' := (hle _ h0 _ h1).mp g
      rcases le_or_gt pt 0 with h | h
      · exact (g'.trans (hup h)).trans fl
      · exact g'.trans (fl0 h g)
    have := ih v1 (turn p v0 v1) l' r' (fun x => seen x ∨ x = v1) (fun v hv => hrest v (by simp [hv])) h1 ml (by
        rintro x (hx | rfl)
        · rcases hs x hx with h | ⟨h, h'⟩
          · exact Or.inl (h.trans fl)
          · rcases le_or_gt (turn p v0 v1) 0 with g | g
            · exact Or.inl (h'.trans (fl0 h g))
            · exact Or.inr ⟨g, h'.trans ((hF _ h0 _ h1).mp g).le⟩
        · rcases le_or_gt (turn p v0 x) 0 with g | g
          · exact Or.inl (fl1 g)
          · exact Or.inr ⟨g, le_rfl⟩) fl1
    simp only at this ⊢
    rw [he]
    refine ⟨fl.trans this.1, ?_⟩
    intro x hx
    by_cases hres : F x ≤ F (tangentsLoop p rest v1 (turn p v0 v1) l' r').1
    · exact Or.inl hres
    right
    have hlast : (v0 :: v1 :: rest).getLast (by simp) = (v1 :: rest).getLast (by simp) := List.getLast_cons _
    rcases this.2 x (by simp only [List.mem_cons] at hx; tauto) with h | ⟨g1, g2⟩
    · exact absurd h hres
    rw [hlast]
    refine ⟨g1, ?_⟩
    intro q hq
    rcases List.suffix_cons_iff.mp hq with h | h
    · injection h with h h'
      subst h
      have hrn : rest = [] := by
        injection h' with h h''
        exact h''.symm
      subst hrn
      simp only [List.getLast_singleton]
      by_contra hc
      apply hres
      have := fl1 (not_lt.mp hc)
      simp only [tangentsLoop]
      exact le_trans (by simpa using g1) this
    · exact g2 q h

end Polygon
end Planar
