import Verif.Lemmas.WindConst
/- The winding number may be counted along any ray, so it changes at most its sign under an invertible affine map. -/
set_option linter.unusedSectionVars false
namespace Planar
open Spec
variable {K : Type} [Field K] [LinearOrder K] [IsStrictOrderedRing K]

/-- Contribution of an edge whose ends are at the heights `f1`, `f2` over the point; `S` is twice the signed area of the
triangle of the point and the edge. -/
def cr (f1 f2 S : K) : Int :=
  if f1 < 0 ∧ 0 ≤ f2 ∧ S ≤ 0 then 1 else if f2 < 0 ∧ 0 ≤ f1 ∧ 0 ≤ S then -1 else 0

/-- Indicator of a quadrant. -/
def quadInd (f g : K) : Int := if 0 ≤ g ∧ f < 0 then 1 else 0

theorem cr_quad {f1 f2 g1 g2 S D : K} (hD : 0 < D) (h : D * S = f1 * g2 - f2 * g1)
    (hA : (f1 < 0 ∧ 0 ≤ f2) ∨ (f2 < 0 ∧ 0 ≤ f1) → S ≠ 0) (hB : (g1 < 0 ∧ 0 ≤ g2) ∨ (g2 < 0 ∧ 0 ≤ g1) → S ≠ 0) :
    cr g1 g2 S - cr f1 f2 S = quadInd f2 g2 - quadInd f1 g1 := by
  unfold cr quadInd
  rcases lt_trichotomy S 0 with s | s | s
  · have h0 : f1 * g2 - f2 * g1 < 0 := by rw [← h]; exact mul_neg_of_pos_of_neg hD s
    have s1 : ¬ (0 ≤ S) := not_le.mpr s
    simp only [s.le, s1, and_true, and_false, if_false]
    rcases lt_or_ge f1 0 with a1 | a1 <;> rcases lt_or_ge f2 0 with a2 | a2 <;> rcases lt_or_ge g1 0 with b1 | b1 <;>
      rcases lt_or_ge g2 0 with b2 | b2 <;>
      first
        | (exfalso; nlinarith)
        | simp [a1, a2, b1, b2, not_lt.mpr, not_le.mpr]
  · have nf : f1 < 0 ↔ f2 < 0 := by
      constructor
      · intro a; by_contra b; exact hA (.inl ⟨a, not_lt.mp b⟩) s
      · intro a; by_contra b; exact hA (.inr ⟨a, not_lt.mp b⟩) s
    have ng : g1 < 0 ↔ g2 < 0 := by
      constructor
      · intro a; by_contra b; exact hB (.inl ⟨a, not_lt.mp b⟩) s
      · intro a; by_contra b; exact hB (.inr ⟨a, not_lt.mp b⟩) s
    have mf : 0 ≤ f1 ↔ 0 ≤ f2 := by rw [← not_lt, ← not_lt, nf]
    have mg : 0 ≤ g1 ↔ 0 ≤ g2 := by rw [← not_lt, ← not_lt, ng]
    simp only [nf, ng, mf, mg]
    rcases lt_or_ge f2 0 with a2 | a2 <;> rcases lt_or_ge g2 0 with b2 | b2 <;>
      simp [a2, b2, not_lt.mpr, not_le.mpr]
  · have h0 : 0 < f1 * g2 - f2 * g1 := by rw [← h]; exact mul_pos hD s
    have s1 : ¬ (S ≤ 0) := not_le.mpr s
    simp only [s.le, s1, and_true, and_false, if_false]
    rcases lt_or_ge f1 0 with a1 | a1 <;> rcases lt_or_ge f2 0 with a2 | a2 <;> rcases lt_or_ge g1 0 with b1 | b1 <;>
      rcases lt_or_ge g2 0 with b2 | b2 <;>
      first
        | (exfalso; nlinarith)
        | simp [a1, a2, b1, b2, not_lt.mpr, not_le.mpr]

/-- The crossing of the leftward ray in terms of heights and areas. -/
theorem crossing_cr (p : Vec2 K) (e : Vec2 K × Vec2 K) : crossing p e = cr (e.1.y - p.y) (e.2.y - p.y) (side e.1 e.2 p) := by
  have key : ∀ hne : e.2.y - e.1.y ≠ 0, (crossX e.1 e.2 p.y - p.x) * (e.2.y - e.1.y) = side e.1 e.2 p := by
    intro hne
    simp only [crossX, side]; field_simp; ring
  unfold crossing cr
  simp only [sub_neg, sub_nonneg]
  have h1 : e.1.y < p.y → p.y ≤ e.2.y → (crossX e.1 e.2 p.y ≤ p.x ↔ side e.1 e.2 p ≤ 0) := by
    intro a b
    have hd : 0 < e.2.y - e.1.y := by linarith
    rw [← key hd.ne']
    constructor
    · intro h; exact mul_nonpos_of_nonpos_of_nonneg (by linarith) hd.le
    · intro h; by_contra hc; exact absurd h (not_le.mpr (mul_pos (by linarith [not_le.mp hc]) hd))
  have h2 : e.2.y < p.y → p.y ≤ e.1.y → (crossX e.1 e.2 p.y ≤ p.x ↔ 0 ≤ side e.1 e.2 p) := by
    intro a b
    have hd : e.2.y - e.1.y < 0 := by linarith
    rw [← key hd.ne]
    constructor
    · intro h; exact mul_nonneg_of_nonpos_of_nonpos (by linarith) hd.le
    · intro h; by_contra hc; exact absurd h (not_le.mpr (mul_neg_of_pos_of_neg (by linarith [not_le.mp hc]) hd))
  have e1 : (e.1.y < p.y ∧ p.y ≤ e.2.y ∧ crossX e.1 e.2 p.y ≤ p.x) ↔ (e.1.y < p.y ∧ p.y ≤ e.2.y ∧ side e.1 e.2 p ≤ 0) :=
    ⟨fun h => ⟨h.1, h.2.1, (h1 h.1 h.2.1).mp h.2.2⟩, fun h => ⟨h.1, h.2.1, (h1 h.1 h.2.1).mpr h.2.2⟩⟩
  have e2 : (e.2.y < p.y ∧ p.y ≤ e.1.y ∧ crossX e.1 e.2 p.y ≤ p.x) ↔ (e.2.y < p.y ∧ p.y ≤ e.1.y ∧ 0 ≤ side e.1 e.2 p) :=
    ⟨fun h => ⟨h.1, h.2.1, (h2 h.1 h.2.1).mp h.2.2⟩, fun h => ⟨h.1, h.2.1, (h2 h.1 h.2.1).mpr h.2.2⟩⟩
  simp only [e1, e2]

/-- The value at `v` of a linear functional, relative to `p`. -/
def fn (α β : K) (p v : Vec2 K) : K := α * (v.x - p.x) + β * (v.y - p.y)

/-- The winding number counted along the ray on which `α x + β y` is as at `p`. -/
def windAlong (α β : K) (vs : List (Vec2 K)) (p : Vec2 K) : Int :=
  ((edges vs).map fun e => cr (fn α β p e.1) (fn α β p e.2) (side e.1 e.2 p)).sum

theorem fn_cross (α β γ δ : K) (p : Vec2 K) (e : Vec2 K × Vec2 K) :
    (α * δ - β * γ) * side e.1 e.2 p = fn α β p e.1 * fn γ δ p e.2 - fn α β p e.2 * fn γ δ p e.1 := by
  simp only [fn, side]; ring

/-- A point on an edge's line at the height of the edge is on the edge. -/
theorem onEdge_straddle {α β : K} {p : Vec2 K} {e : Vec2 K × Vec2 K}
    (h : (fn α β p e.1 < 0 ∧ 0 ≤ fn α β p e.2) ∨ (fn α β p e.2 < 0 ∧ 0 ≤ fn α β p e.1)) (hs : side e.1 e.2 p = 0) :
    OnEdge e p := by
  have hd : fn α β p e.2 - fn α β p e.1 ≠ 0 := by
    rcases h with h | h
    · linarith [h.1, h.2]
    · exact (by linarith [h.1, h.2] : fn α β p e.2 - fn α β p e.1 < 0).ne
  refine ⟨-fn α β p e.1 / (fn α β p e.2 - fn α β p e.1), ?_, ?_, ?_, ?_⟩
  · rcases h with h | h
    · exact div_nonneg (by linarith [h.1]) (by linarith [h.1, h.2])
    · exact div_nonneg_of_nonpos (by linarith [h.2]) (by linarith [h.1, h.2])
  · rcases h with h | h
    · rw [div_le_one (by linarith [h.1, h.2])]; linarith [h.2]
    · rw [div_le_one_of_neg (by linarith [h.1, h.2])]; linarith [h.1]
  · have : (p.x - e.1.x) * (fn α β p e.2 - fn α β p e.1) = -fn α β p e.1 * (e.2.x - e.1.x) := by
      simp only [fn, side] at *; linear_combination -β * hs
    field_simp; linear_combination this
  · have : (p.y - e.1.y) * (fn α β p e.2 - fn α β p e.1) = -fn α β p e.1 * (e.2.y - e.1.y) := by
      simp only [fn, side] at *; linear_combination α * hs
    field_simp; linear_combination this

theorem sum_map_sub {α : Type} (l : List α) (f g : α → Int) :
    (l.map f).sum - (l.map g).sum = (l.map fun e => f e - g e).sum := by
  induction l with
  | nil => simp
  | cons a l ih => simp only [List.map_cons, List.sum_cons]; rw [← ih]; ring

theorem sum_telescope_int (q : Vec2 K → Int) (vs : List (Vec2 K)) : ((edges vs).map fun e => q e.2 - q e.1).sum = 0 := by
  have := sum_edges_telescope q vs
  simpa using this

/-- Two rays give the same number, if the point is on no edge. -/
theorem windAlong_pos {α β γ δ : K} (hD : 0 < α * δ - β * γ) {vs : List (Vec2 K)} {p : Vec2 K}
    (hp : ∀ e ∈ edges vs, ¬ OnEdge e p) : windAlong γ δ vs p = windAlong α β vs p := by
  have : windAlong γ δ vs p - windAlong α β vs p = 0 := by
    rw [windAlong, windAlong, sum_map_sub]
    rw [← sum_telescope_int (fun v => quadInd (fn α β p v) (fn γ δ p v)) vs]
    congr 1
    apply List.map_congr_left
    intro e he
    exact cr_quad hD (fn_cross α β γ δ p e) (fun h hs => hp e he (onEdge_straddle h hs))
      (fun h hs => hp e he (onEdge_straddle h hs))
  linarith

theorem windAlong_any {α β γ δ : K} (h1 : α ≠ 0 ∨ β ≠ 0) (h2 : γ ≠ 0 ∨ δ ≠ 0) {vs : List (Vec2 K)} {p : Vec2 K}
    (hp : ∀ e ∈ edges vs, ¬ OnEdge e p) : windAlong γ δ vs p = windAlong α β vs p := by
  have ne : ∀ {a b c d : K}, a * d - b * c ≠ 0 → windAlong c d vs p = windAlong a b vs p := by
    intro a b c d h
    rcases lt_or_gt_of_ne h with h | h
    · exact (windAlong_pos (by linarith) hp).symm
    · exact windAlong_pos h hp
  have pos : ∀ {a b : K}, a ≠ 0 ∨ b ≠ 0 → a * a + b * b ≠ 0 := by
    intro a b h
    rcases h with h | h
    · exact (by have := mul_self_pos.mpr h; nlinarith [mul_self_nonneg b] : 0 < a * a + b * b).ne'
    · exact (by have := mul_self_pos.mpr h; nlinarith [mul_self_nonneg a] : 0 < a * a + b * b).ne'
  by_cases h : α * δ - β * γ = 0
  · -- go through the perpendicular
    rw [ne (a := -β) (b := α) (c := γ) (d := δ), ne (a := α) (b := β) (c := -β) (d := α)]
    · have := pos h1; intro h'; apply this; linarith
    · -- -β δ - α γ ≠ 0
      intro h'
      rcases h1 with h1 | h1
      · have hg : (α * α + β * β) * γ = 0 := by linear_combination -α * h' - β * h
        have hd : (α * α + β * β) * δ = 0 := by linear_combination -β * h' + α * h
        have hp := pos (a := α) (b := β) (.inl h1)
        rcases h2 with h2 | h2
        · exact h2 ((mul_eq_zero.mp hg).resolve_left hp)
        · exact h2 ((mul_eq_zero.mp hd).resolve_left hp)
      · have hg : (α * α + β * β) * γ = 0 := by linear_combination -α * h' - β * h
        have hd : (α * α + β * β) * δ = 0 := by linear_combination -β * h' + α * h
        have hp := pos (a := α) (b := β) (.inr h1)
        rcases h2 with h2 | h2
        · exact h2 ((mul_eq_zero.mp hg).resolve_left hp)
        · exact h2 ((mul_eq_zero.mp hd).resolve_left hp)
  · exact ne h

theorem winding_eq_along (vs : List (Vec2 K)) (p : Vec2 K) : winding vs p = windAlong 0 1 vs p := by
  unfold winding windAlong
  congr 1
  apply List.map_congr_left
  intro e _
  rw [crossing_cr]; simp [fn]

/-- The opposite ray gives the opposite number, if the point is on no edge. -/
theorem cr_flip {f1 f2 S : K} (hA : (f1 < 0 ∧ 0 ≤ f2) ∨ (f2 < 0 ∧ 0 ≤ f1) → S ≠ 0) :
    cr f1 f2 (-S) + cr f1 f2 S = (if f1 < 0 then (1 : Int) else 0) - (if f2 < 0 then 1 else 0) := by
  unfold cr
  rcases lt_or_ge f1 0 with a1 | a1 <;> rcases lt_or_ge f2 0 with a2 | a2
  · simp [a1, a2, not_le.mpr]
  · have := hA (.inl ⟨a1, a2⟩)
    rcases lt_or_gt_of_ne this with s | s
    · simp [a1, a2, not_lt.mpr a2, s.le, not_le.mpr s]
    · simp [a1, a2, not_lt.mpr a2, s.le, not_le.mpr s]
  · have := hA (.inr ⟨a2, a1⟩)
    rcases lt_or_gt_of_ne this with s | s
    · simp [a1, a2, not_lt.mpr a1, s.le, not_le.mpr s]
    · simp [a1, a2, not_lt.mpr a1, s.le, not_le.mpr s]
  · simp [a1, a2, not_lt.mpr a1, not_lt.mpr a2]

theorem windAlong_flip {α β : K} {vs : List (Vec2 K)} {p : Vec2 K} (hp : ∀ e ∈ edges vs, ¬ OnEdge e p) :
    ((edges vs).map fun e => cr (fn α β p e.1) (fn α β p e.2) (-side e.1 e.2 p)).sum = -windAlong α β vs p := by
  have h0 := sum_telescope_int (fun v => -(if fn α β p v < 0 then (1 : Int) else 0)) vs
  have : ((edges vs).map fun e => cr (fn α β p e.1) (fn α β p e.2) (-side e.1 e.2 p)).sum - -windAlong α β vs p = 0 := by
    have hn : -windAlong α β vs p = ((edges vs).map fun e => -cr (fn α β p e.1) (fn α β p e.2) (side e.1 e.2 p)).sum := by
      have := sum_map_sub (edges vs) (fun _ => 0) (fun e => cr (fn α β p e.1) (fn α β p e.2) (side e.1 e.2 p))
      simpa [windAlong] using this
    rw [← h0, hn, sum_map_sub]
    congr 1
    apply List.map_congr_left
    intro e he
    have := cr_flip (fun h hs => hp e he (onEdge_straddle (α := α) (β := β) h hs))
    linarith
  linarith

theorem cr_scale {f1 f2 S k : K} (hk : 0 < k) : cr f1 f2 (k * S) = cr f1 f2 S := by
  unfold cr
  have h1 : k * S ≤ 0 ↔ S ≤ 0 := by
    constructor
    · intro h; by_contra hc; exact absurd h (not_le.mpr (mul_pos hk (not_le.mp hc)))
    · intro h; exact mul_nonpos_of_nonneg_of_nonpos hk.le h
  have h2 : 0 ≤ k * S ↔ 0 ≤ S := by
    constructor
    · intro h; by_contra hc; exact absurd h (not_le.mpr (mul_neg_of_pos_of_neg hk (not_le.mp hc)))
    · intro h; exact mul_nonneg hk.le h
  simp only [h1, h2]

/-- An invertible affine map keeps the winding number of a point on no edge if its determinant is positive, and changes
its sign if it is negative. -/
theorem winding_map (M : Vec2 K → Vec2 K) (a b c d e f : K)
    (hM : ∀ v, M v = ⟨v.x * a + v.y * d + c, v.x * b + v.y * e + f⟩) (vs : List (Vec2 K)) (p : Vec2 K)
    (hp : ∀ e ∈ edges vs, ¬ OnEdge e p) :
    (0 < a * e - b * d → winding (vs.map M) (M p) = winding vs p) ∧
    (a * e - b * d < 0 → winding (vs.map M) (M p) = -winding vs p) := by
  have hw : winding (vs.map M) (M p) =
      ((edges vs).map fun g => cr (fn b e p g.1) (fn b e p g.2) ((a * e - b * d) * side g.1 g.2 p)).sum := by
    rw [winding, edges_map, List.map_map]
    congr 1
    apply List.map_congr_left
    intro g _
    simp only [Function.comp]
    rw [crossing_cr]
    congr 1
    · simp only [hM, fn]; ring
    · simp only [hM, fn]; ring
    · simp only [hM, side]; ring
  have hbe : a * e - b * d ≠ 0 → b ≠ 0 ∨ e ≠ 0 := by
    intro h
    by_contra hc
    push Not at hc
    apply h; rw [hc.1, hc.2]; ring
  constructor
  · intro hd
    rw [hw, winding_eq_along, ← windAlong_any (.inr one_ne_zero) (hbe hd.ne') hp, windAlong]
    congr 1
    apply List.map_congr_left
    intro g _
    exact cr_scale hd
  · intro hd
    rw [hw, winding_eq_along, ← windAlong_any (.inr one_ne_zero) (hbe hd.ne) hp, ← windAlong_flip hp]
    congr 1
    apply List.map_congr_left
    intro g _
    rw [show (a * e - b * d) * side g.1 g.2 p = (-(a * e - b * d)) * (-side g.1 g.2 p) from by ring]
    exact cr_scale (by linarith)

end Planar
