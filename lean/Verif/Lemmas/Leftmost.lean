import Verif.Lemmas.Split
/- The winding number of a convex polygon, and on which chain the leftmost vertex is. -/
set_option linter.unusedSectionVars false
namespace Planar
open Spec
namespace Polygon
variable {K : Type} [Field K] [LinearOrder K] [IsStrictOrderedRing K]

theorem crossing_up {p : Vec2 K} {e : Vec2 K × Vec2 K} (h : Up p.y e) :
    crossing p e = if crossX e.1 e.2 p.y ≤ p.x then 1 else 0 := by
  unfold crossing
  have : ¬ (e.2.y < p.y) := not_lt.mpr h.2
  simp [h.1, h.2, this]

theorem crossing_dn {p : Vec2 K} {e : Vec2 K × Vec2 K} (h : Dn p.y e) :
    crossing p e = if crossX e.1 e.2 p.y ≤ p.x then -1 else 0 := by
  unfold crossing
  have : ¬ (e.1.y < p.y) := not_lt.mpr h.2
  simp [h.1, h.2, this]

theorem crossing_no {p : Vec2 K} {e : Vec2 K × Vec2 K} (h : ¬ Up p.y e) (h' : ¬ Dn p.y e) : crossing p e = 0 := by
  unfold crossing
  rw [if_neg (fun hc => h ⟨hc.1, hc.2.1⟩), if_neg (fun hc => h' ⟨hc.1, hc.2.1⟩)]

/-- The sum over a list with at most one edge up and at most one down. -/
theorem sum_single {l : List (Vec2 K × Vec2 K)} {p : Vec2 K} (hU : l.Pairwise (fun e f => ¬ (Up p.y e ∧ Up p.y f)))
    (hD : l.Pairwise (fun e f => ¬ (Dn p.y e ∧ Dn p.y f))) {u d : Vec2 K × Vec2 K} (hu : u ∈ l) (hu' : Up p.y u)
    (hd : d ∈ l) (hd' : Dn p.y d) : (l.map (crossing p)).sum = crossing p u + crossing p d := by
  have hne : u ≠ d := by
    rintro rfl; exact absurd hu'.1 (not_lt.mpr hd'.2)
  -- move u and d to the front
  obtain ⟨l1, hl1⟩ := List.mem_iff_append.mp hu
  obtain ⟨l2, rfl⟩ := hl1
  have hperm : (l1 ++ u :: l2).Perm (u :: (l1 ++ l2)) := List.perm_middle
  have symU : ∀ {e f : Vec2 K × Vec2 K}, ¬ (Up p.y e ∧ Up p.y f) → ¬ (Up p.y f ∧ Up p.y e) := fun h h' => h ⟨h'.2, h'.1⟩
  have symD : ∀ {e f : Vec2 K × Vec2 K}, ¬ (Dn p.y e ∧ Dn p.y f) → ¬ (Dn p.y f ∧ Dn p.y e) := fun h h' => h ⟨h'.2, h'.1⟩
  rw [hperm.pairwise_iff symU] at hU
  rw [hperm.pairwise_iff symD] at hD
  rw [(hperm.map (crossing p)).sum_eq]
  have hd2 : d ∈ l1 ++ l2 := by
    have : d ∈ u :: (l1 ++ l2) := hperm.mem_iff.mp hd
    rcases List.mem_cons.mp this with h | h
    · exact absurd h.symm hne
    · exact h
  obtain ⟨m1, m2, hm⟩ := List.append_of_mem hd2
  rw [hm] at hU hD ⊢
  have hperm2 : (u :: (m1 ++ d :: m2)).Perm (u :: d :: (m1 ++ m2)) := List.Perm.cons _ List.perm_middle
  rw [hperm2.pairwise_iff symU] at hU
  rw [hperm2.pairwise_iff symD] at hD
  rw [(hperm2.map (crossing p)).sum_eq]
  have hz : ∀ e ∈ m1 ++ m2, crossing p e = 0 := by
    intro e he
    apply crossing_no
    · intro hue
      exact List.rel_of_pairwise_cons hU (by simp at he ⊢; tauto) ⟨hu', hue⟩
    · intro hde
      exact List.rel_of_pairwise_cons (List.pairwise_cons.mp hD).2 he ⟨hd', hde⟩
  have : ((m1 ++ m2).map (crossing p)).sum = 0 := by
    apply List.sum_eq_zero
    intro z hz'
    obtain ⟨e, he, rfl⟩ := List.mem_map.mp hz'
    exact hz e he
  simp only [List.map_cons, List.sum_cons, this]; ring

/-- The crossing point of an edge is on the side of the edge's ends. -/
theorem side_crossX {a b c d : Vec2 K} {h : K} (hcd : (c.y < h ∧ h ≤ d.y) ∨ (d.y < h ∧ h ≤ c.y)) (r : K → Prop)
    (r1 : ∀ u v t : K, r u → r v → 0 ≤ t → t ≤ 1 → r (u + t * (v - u)))
    (h1 : r (side a b c)) (h2 : r (side a b d)) : r (side a b ⟨crossX c d h, h⟩) := by
  have hne : d.y - c.y ≠ 0 := by
    rcases hcd with h | h
    · have : c.y < d.y := h.1.trans_le h.2
      exact sub_ne_zero.mpr this.ne'
    · have : d.y < c.y := h.1.trans_le h.2
      exact sub_ne_zero.mpr this.ne
  have e : side a b ⟨crossX c d h, h⟩ = side a b c + (h - c.y) / (d.y - c.y) * (side a b d - side a b c) := by
    simp only [side, crossX]
    field_simp
    ring
  rw [e]
  apply r1 _ _ _ h1 h2
  · rcases hcd with h | h
    · exact div_nonneg (by linarith [h.1]) (by linarith [h.1, h.2])
    · exact div_nonneg_of_nonpos (by linarith [h.2]) (by linarith [h.1, h.2])
  · rcases hcd with h | h
    · rw [div_le_one (by linarith [h.1, h.2])]; linarith [h.2]
    · rw [div_le_one_of_neg (by linarith [h.1, h.2])]; linarith [h.1]

/-- With the vertices on the left of every edge the upward edge is on the right of the downward one. -/
theorem crossX_order {e f : Vec2 K × Vec2 K} {h : K} (he : Up h e) (hf : Dn h f) :
    (0 ≤ side e.1 e.2 f.1 → 0 ≤ side e.1 e.2 f.2 → crossX f.1 f.2 h ≤ crossX e.1 e.2 h) ∧
    (side e.1 e.2 f.1 ≤ 0 → side e.1 e.2 f.2 ≤ 0 → crossX e.1 e.2 h ≤ crossX f.1 f.2 h) := by
  have hy : 0 < e.2.y - e.1.y := by linarith [he.1, he.2]
  have key : ∀ x : K, side e.1 e.2 ⟨x, h⟩ = (e.2.y - e.1.y) * (crossX e.1 e.2 h - x) := by
    intro x; simp only [side, crossX]; field_simp; ring
  constructor
  · intro h1 h2
    have := side_crossX (a := e.1) (b := e.2) (Or.inr hf) (fun k => 0 ≤ k) (fun u v t hu hv h0 h1 => by nlinarith) h1 h2
    rw [key] at this
    have := nonneg_of_mul_nonneg_right this hy
    linarith
  · intro h1 h2
    have := side_crossX (a := e.1) (b := e.2) (Or.inr hf) (fun k => k ≤ 0) (fun u v t hu hv h0 h1 => by nlinarith) h1 h2
    rw [key] at this
    have := nonpos_of_mul_nonpos_right this hy
    linarith

theorem path_first {a b : Vec2 K} {l : List (Vec2 K × Vec2 K)} (hp : IsPath a l b) (hne : a ≠ b) :
    ∃ e ∈ l, e.1 = a ∧ e.1 ≠ e.2 := by
  induction l generalizing a with
  | nil => exact absurd hp hne
  | cons e l ih =>
    by_cases h : e.1 = e.2
    · obtain ⟨f, hf, h1, h2⟩ := ih hp.2 (by rw [← h, hp.1]; exact hne)
      exact ⟨f, by simp [hf], by rw [h1, ← h, hp.1], h2⟩
    · exact ⟨e, by simp, hp.1, h⟩

/-- A leftmost point strictly inside a chain that goes up cannot have all points on the left of the chain, unless all
points are on a vertical line. -/
theorem leftmost_base {S : Vec2 K → Prop} {a b V : Vec2 K} {l1 l2 : List (Vec2 K × Vec2 K)} (p1 : IsPath a l1 V)
    (p2 : IsPath V l2 b) (up : ∀ e ∈ l1 ++ l2, e.1.y ≤ e.2.y) (mem : ∀ e ∈ l1 ++ l2, S e.1 ∧ S e.2)
    (sd : ∀ e ∈ l1 ++ l2, ∀ v, S v → 0 ≤ side e.1 e.2 v) (hx : ∀ v, S v → V.x ≤ v.x)
    (hlo : ∀ v, S v → a.y ≤ v.y) (hhi : ∀ v, S v → v.y ≤ b.y) (Sa : S a) (Sb : S b) (SV : S V) (ha : V ≠ a) (hb : V ≠ b) (hab : a.y < b.y) :
    ∀ v, S v → v.x = V.x := by
  rcases lt_or_eq_of_le (hlo V SV) with h1 | h1
  · rcases lt_or_eq_of_le (hhi V SV) with h2 | h2
    · obtain ⟨e, he, heV, hne⟩ := path_first p2 hb
      have hmem := mem e (by simp [he])
      have hdy := up e (by simp [he])
      have hdx := hx e.2 hmem.2
      have sa := sd e (by simp [he]) a Sa
      simp only [side, heV] at sa
      rw [heV] at hdy hne
      have hax := hx a Sa
      rcases lt_or_eq_of_le hdy with hdy | hdy
      · have e0 : e.2.x = V.x := by
          by_contra hc
          have h3 : 0 < e.2.x - V.x := by
            rcases lt_or_eq_of_le hdx with h | h
            · linarith
            · exact absurd h.symm hc
          nlinarith [mul_pos h3 (sub_pos.mpr h1), mul_nonneg (sub_pos.mpr hdy).le (sub_nonneg.mpr hax)]
        intro v hv
        have sv := sd e (by simp [he]) v hv
        simp only [side, heV, e0] at sv
        have hvx := hx v hv
        have : (e.2.y - V.y) * (v.x - V.x) ≤ 0 := by linarith
        have := nonpos_of_mul_nonpos_right this (sub_pos.mpr hdy)
        linarith
      · exfalso
        have h3 : 0 < e.2.x - V.x := by
          rcases lt_or_eq_of_le hdx with h | h
          · linarith
          · exact absurd (Vec2.ext h hdy) hne
        rw [← hdy] at sa
        nlinarith [mul_pos h3 (sub_pos.mpr h1)]
    · -- at the top
      exfalso
      have hVx : V.x < b.x := by
        rcases lt_or_eq_of_le (hx b Sb) with h | h
        · exact h
        · exact absurd (Vec2.ext h h2) hb
      have : ∃ e ∈ l2, 0 < e.2.x - e.1.x := by
        by_contra hc
        push Not at hc
        have := path_nonneg p2 (-1) 0 (fun e he => by have := hc e he; simp only [vec, Vec2.sub_x]; linarith)
        linarith
      obtain ⟨e, he, hdx⟩ := this
      obtain ⟨x, z, rfl⟩ := List.append_of_mem he
      obtain ⟨c, q1, q2⟩ := isPath_append.mp p2
      have g1 := path_nonneg q1 0 1 (fun f hf => by
        have := up f (by simp [hf]); simp only [vec, Vec2.sub_x, Vec2.sub_y]; linarith)
      have g2 := up e (by simp)
      have g3 := hhi e.2 (mem e (by simp)).2
      rw [q2.1] at g2
      have sa := sd e (by simp) a Sa
      simp only [side, q2.1] at sa
      have hdx' : 0 < e.2.x - c.x := by rw [← q2.1]; exact hdx
      have e1 : e.2.y = c.y := by linarith
      rw [e1] at sa
      have : c.y = b.y := by linarith
      nlinarith [mul_pos hdx' (sub_pos.mpr hab)]
  · -- at the bottom
    exfalso
    have hVx : V.x < a.x := by
      rcases lt_or_eq_of_le (hx a Sa) with h | h
      · exact h
      · exact absurd (Vec2.ext h h1.symm) ha
    have : ∃ e ∈ l1, e.2.x - e.1.x < 0 := by
      by_contra hc
      push Not at hc
      have := path_nonneg p1 1 0 (fun e he => by have := hc e he; simp only [vec, Vec2.sub_x]; linarith)
      linarith
    obtain ⟨e, he, hdx⟩ := this
    obtain ⟨x, z, rfl⟩ := List.append_of_mem he
    obtain ⟨c, q1, q2⟩ := isPath_append.mp p1
    have g1 := path_nonneg q2.2 0 1 (fun f hf => by
      have := up f (by simp [hf]); simp only [vec, Vec2.sub_x, Vec2.sub_y]; linarith)
    have g2 := up e (by simp)
    have g3 := hlo e.1 (mem e (by simp)).1
    have sb := sd e (by simp) b Sb
    simp only [side] at sb
    have e1 : e.2.y = e.1.y := by linarith
    have e2 : e.1.y = a.y := by linarith
    rw [e1, e2] at sb
    nlinarith [mul_pos (neg_pos.mpr hdx) (sub_pos.mpr hab)]

/-- Reflections in the axes. -/
def refl (ρ τ : K) (v : Vec2 K) : Vec2 K := ⟨ρ * v.x, τ * v.y⟩

/-- The four cases: the leftmost (ρ = 1) or rightmost (ρ = -1) point on a chain that goes up (τ = 1) or down (τ = -1). -/
theorem leftmost {S : Vec2 K → Prop} {ρ τ : K} (hρ : ρ = 1 ∨ ρ = -1) (hτ : τ = 1 ∨ τ = -1) {a b V : Vec2 K}
    {l1 l2 : List (Vec2 K × Vec2 K)} (p1 : IsPath a l1 V)
    (p2 : IsPath V l2 b) (up : ∀ e ∈ l1 ++ l2, τ * e.1.y ≤ τ * e.2.y) (mem : ∀ e ∈ l1 ++ l2, S e.1 ∧ S e.2)
    (sd : ∀ e ∈ l1 ++ l2, ∀ v, S v → 0 ≤ ρ * τ * side e.1 e.2 v) (hx : ∀ v, S v → ρ * V.x ≤ ρ * v.x)
    (hlo : ∀ v, S v → τ * a.y ≤ τ * v.y) (hhi : ∀ v, S v → τ * v.y ≤ τ * b.y) (Sa : S a) (Sb : S b) (SV : S V) (ha : V ≠ a)
    (hb : V ≠ b) (hab : τ * a.y < τ * b.y) : ∀ v, S v → v.x = V.x := by
  have hρ2 : ρ * ρ = 1 := by rcases hρ with rfl | rfl <;> ring
  have hτ2 : τ * τ = 1 := by rcases hτ with rfl | rfl <;> ring
  have hρ0 : ρ ≠ 0 := by rintro rfl; simp at hρ2
  have hτ0 : τ ≠ 0 := by rintro rfl; simp at hτ2
  have inj : ∀ u v : Vec2 K, refl ρ τ u = refl ρ τ v → u = v := by
    intro u v h
    have h1 := congrArg Vec2.x h
    have h2 := congrArg Vec2.y h
    exact Vec2.ext (mul_left_cancel₀ hρ0 h1) (mul_left_cancel₀ hτ0 h2)
  have mp : ∀ (a b : Vec2 K) (l : List (Vec2 K × Vec2 K)), IsPath a l b →
      IsPath (refl ρ τ a) (l.map fun e => (refl ρ τ e.1, refl ρ τ e.2)) (refl ρ τ b) := by
    intro a b l
    induction l generalizing a with
    | nil => intro h; rw [show a = b from h]; rfl
    | cons e l ih => intro h; exact ⟨by simp [h.1], ih e.2 h.2⟩
  have hside : ∀ a b v : Vec2 K, side (refl ρ τ a) (refl ρ τ b) (refl ρ τ v) = ρ * τ * side a b v := by
    intro a b v; simp only [side, refl]; ring
  have hm : ∀ e', e' ∈ (l1.map fun e => (refl ρ τ e.1, refl ρ τ e.2)) ++ (l2.map fun e => (refl ρ τ e.1, refl ρ τ e.2)) →
      ∃ e ∈ l1 ++ l2, e' = (refl ρ τ e.1, refl ρ τ e.2) := by
    intro e' he'
    rw [← List.map_append] at he'
    obtain ⟨e, he, h⟩ := List.mem_map.mp he'
    exact ⟨e, he, h.symm⟩
  have main := leftmost_base (S := fun v => ∃ w, S w ∧ v = refl ρ τ w) (mp _ _ _ p1) (mp _ _ _ p2)
    (by intro e' he'; obtain ⟨e, he, rfl⟩ := hm e' he'; exact up e he)
    (by intro e' he'; obtain ⟨e, he, rfl⟩ := hm e' he'; exact ⟨⟨_, (mem e he).1, rfl⟩, ⟨_, (mem e he).2, rfl⟩⟩)
    (by rintro e' he' v ⟨w, hw, rfl⟩; obtain ⟨e, he, rfl⟩ := hm e' he'; rw [hside]; exact sd e he w hw)
    (by rintro v ⟨w, hw, rfl⟩; exact hx w hw) (by rintro v ⟨w, hw, rfl⟩; exact hlo w hw)
    (by rintro v ⟨w, hw, rfl⟩; exact hhi w hw) ⟨a, Sa, rfl⟩ ⟨b, Sb, rfl⟩ ⟨V, SV, rfl⟩
    (fun h => ha (inj _ _ h)) (fun h => hb (inj _ _ h)) hab
  intro v hv
  have := main (refl ρ τ v) ⟨v, hv, rfl⟩
  exact mul_left_cancel₀ hρ0 this

end Polygon
end Planar
