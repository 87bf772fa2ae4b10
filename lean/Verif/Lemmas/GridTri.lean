import Verif.Lemmas.GridHull
import Verif.Spec.Convex
import Verif.Props.Triangle
/- On a grid: the triangle test. The barycentric coordinates are rounded, so one of the three comparisons is only right
away from the line through the lowest and the highest vertex. -/
set_option linter.unusedSectionVars false
namespace Planar
open Spec Polygon

variable {F : Type} [Field F] [LinearOrder F] [IsStrictOrderedRing F] {R : Rounding F} {u : F} {B : ℤ}

/-- The relative error of the rounding is small compared to the squares of the number of steps, for the inverses of
products of four differences and for the quotients of such products. -/
structure TriGrid (R : Rounding F) (u : F) (B : ℤ) : Prop extends HullGrid R u B where
  err : ∃ ε : F, 0 ≤ ε ∧ 2 * ε < 1 ∧
    (∀ x : F, 1 / (128 * B * B * B * B * (u * u * (u * u))) ≤ x → x ≤ 1 / (u * u * (u * u)) →
      (1 - ε) * x ≤ R.rnd x ∧ R.rnd x ≤ (1 + ε) * x) ∧
    (∀ x : F, 1 / (1024 * B * B * B * B) ≤ x → x ≤ 1024 * B * B * B * B → (1 - ε) * x ≤ R.rnd x ∧ R.rnd x ≤ (1 + ε) * x) ∧
    (1 - 1 / (8 * (B : F) * B)) * (1 + ε) ^ 3 < 1 ∧ 1 < (1 + 1 / (8 * (B : F) * B)) * (1 - ε) ^ 3

theorem Grid.neg {w : F} {N : ℤ} {a : Fl R} (h : Grid w N a) : Grid w N (-a) := by
  obtain ⟨n, hn, ha⟩ := h
  exact ⟨-n, by rwa [abs_neg], by rw [Fl.neg_val, ha]; push_cast; ring⟩

theorem HullGrid.sign_pos (hG : HullGrid R u B) {n d : Fl R} (gn : Grid (u * u * (u * u)) (128 * B * B * B * B) n)
    (gd : Grid (u * u * (u * u)) (128 * B * B * B * B) d) (hd : 0 < d.val) :
    0 < n * (1 / d) ↔ 0 < n.val * (1 / d.val) := by
  have h := hG.sign (n := -n) gn.neg gd hd
  have e1 : -n * (1 / d) = -(n * (1 / d)) := (RoundedArith.neg_mul _ _).symm
  rw [e1] at h
  have e2 : (-n).val * (1 / d.val) = -(n.val * (1 / d.val)) := by rw [Fl.neg_val]; ring
  rw [e2, val_lt, Fl.neg_val, val_zero] at h
  rw [val_lt, val_zero]
  constructor
  · intro hh; have := h.mp (by linarith); linarith
  · intro hh; have := h.mpr (by linarith); linarith

/-- The sum of the two rounded coordinates compared to one. -/
theorem TriGrid.sum (hG : TriGrid R u B) {n m d : Fl R} (gn : Grid (u * u * (u * u)) (128 * B * B * B * B) n)
    (gm : Grid (u * u * (u * u)) (128 * B * B * B * B) m)
    (gd : Grid (u * u * (u * u)) (128 * B * B * B * B) d) (hd : 0 < d.val) (hn : 0 ≤ n.val) (hm : 0 ≤ m.val)
    (hgap : (n.val + m.val) / d.val ≤ 1 - 1 / (8 * (B : F) * B) ∨ 1 + 1 / (8 * (B : F) * B) ≤ (n.val + m.val) / d.val) :
    ((n * (1 / d) + m * (1 / d)).val < 1 ↔ n.val * (1 / d.val) + m.val * (1 / d.val) < 1) ∧
    ((n * (1 / d) + m * (1 / d)).val ≤ 1 ↔ n.val * (1 / d.val) + m.val * (1 / d.val) ≤ 1) := by
  obtain ⟨ε, h0, h1', he1, he, hlo, hhi⟩ := hG.err
  have h1 : ε < 1 := by linarith
  have f1 : (1 : F) / 8 ≤ (1 - ε) ^ 2 := by
    have : (1 / 2 : F) ^ 2 ≤ (1 - ε) ^ 2 := pow_le_pow_left₀ (by norm_num) (by linarith) 2
    linarith
  have f2 : (1 + ε) ^ 2 ≤ 4 := by
    have : (1 + ε) ^ 2 ≤ (2 : F) ^ 2 := pow_le_pow_left₀ (by linarith) (by linarith) 2
    linarith
  have hu := hG.up
  have hu4 : 0 < u * u * (u * u) := by positivity
  have hB : (0 : F) < B := by exact_mod_cast hG.pos
  have hB4 : (0 : F) < B * B * B * B := by positivity
  have hδ : 0 < 1 / (8 * (B : F) * B) := by positivity
  have hd' : 0 < 1 / d.val := by positivity
  set i := R.rnd (1 / d.val) with hi
  obtain ⟨r1, r2⟩ := hG.inv_bounds hd gd
  obtain ⟨i1, i2⟩ := he1 (1 / d.val) r1 r2
  rw [← hi] at i1 i2
  have hi0 : 0 ≤ i := le_trans (mul_nonneg (by linarith) hd'.le) i1
  -- quotients of grid numbers are zero or in the range of `he`, with a margin of four
  have range : ∀ k : Fl R, Grid (u * u * (u * u)) (128 * B * B * B * B) k → 0 < k.val →
      1 / (128 * B * B * B * B) ≤ k.val * (1 / d.val) ∧ k.val * (1 / d.val) ≤ 128 * B * B * B * B := by
    intro k gk hk
    obtain ⟨b1, b2⟩ := gk.bounds hu4 hk.ne'
    rw [abs_of_pos hk] at b1 b2
    push_cast at b2
    constructor
    · calc 1 / (128 * (B : F) * B * B * B)
          = u * u * (u * u) * (1 / (128 * B * B * B * B * (u * u * (u * u)))) := by field_simp
        _ ≤ k.val * (1 / d.val) := mul_le_mul b1 r1 (by positivity) hk.le
    · calc k.val * (1 / d.val) ≤ 128 * B * B * B * B * (u * u * (u * u)) * (1 / (u * u * (u * u))) :=
            mul_le_mul b2 r2 hd'.le (by positivity)
        _ = _ := by field_simp
  have lowup : 1 / (1024 * (B : F) * B * B * B) = 1 / (128 * B * B * B * B) / 8 := by field_simp; norm_num
  have bound : ∀ k : Fl R, Grid (u * u * (u * u)) (128 * B * B * B * B) k → 0 ≤ k.val →
      (1 - ε) ^ 2 * (k.val * (1 / d.val)) ≤ R.rnd (k.val * i) ∧
      R.rnd (k.val * i) ≤ (1 + ε) ^ 2 * (k.val * (1 / d.val)) := by
    intro k gk hk
    rcases hk.eq_or_lt with hk0 | hk0
    · rw [← hk0]; simp [R.zero]
    obtain ⟨q1, q2⟩ := range k gk hk0
    have q0 : 0 < k.val * (1 / d.val) := mul_pos hk0 hd'
    have w1 : (1 - ε) * (k.val * (1 / d.val)) ≤ k.val * i := by
      calc (1 - ε) * (k.val * (1 / d.val)) = k.val * ((1 - ε) * (1 / d.val)) := by ring
        _ ≤ k.val * i := mul_le_mul_of_nonneg_left i1 hk
    have w2 : k.val * i ≤ (1 + ε) * (k.val * (1 / d.val)) := by
      calc k.val * i ≤ k.val * ((1 + ε) * (1 / d.val)) := mul_le_mul_of_nonneg_left i2 hk
        _ = _ := by ring
    have w3 : (1 / 2) * (k.val * (1 / d.val)) ≤ (1 - ε) * (k.val * (1 / d.val)) :=
      mul_le_mul_of_nonneg_right (by linarith) q0.le
    have w4 : (1 + ε) * (k.val * (1 / d.val)) ≤ 2 * (k.val * (1 / d.val)) :=
      mul_le_mul_of_nonneg_right (by linarith) q0.le
    obtain ⟨a1, a2⟩ := he (k.val * i) (by rw [lowup]; linarith) (by linarith)
    constructor
    · refine le_trans ?_ a1
      calc (1 - ε) ^ 2 * (k.val * (1 / d.val)) = (1 - ε) * ((1 - ε) * (k.val * (1 / d.val))) := by ring
        _ ≤ (1 - ε) * (k.val * i) := mul_le_mul_of_nonneg_left w1 (by linarith)
    · refine le_trans a2 ?_
      calc (1 + ε) * (k.val * i) ≤ (1 + ε) * ((1 + ε) * (k.val * (1 / d.val))) :=
            mul_le_mul_of_nonneg_left w2 (by linarith)
        _ = _ := by ring
  obtain ⟨n1, n2⟩ := bound _ gn hn
  obtain ⟨m1, m2⟩ := bound _ gm hm
  set x := n.val * (1 / d.val) + m.val * (1 / d.val) with hx
  have hx0 : 0 ≤ x := add_nonneg (mul_nonneg hn hd'.le) (mul_nonneg hm hd'.le)
  have exd : (n.val + m.val) / d.val = x := by rw [hx]; ring
  rw [exd] at hgap
  have es : (n * (1 / d) + m * (1 / d)).val = R.rnd (R.rnd (n.val * i) + R.rnd (m.val * i)) := rfl
  rw [es]
  set s := R.rnd (n.val * i) + R.rnd (m.val * i) with hs
  have s1 : (1 - ε) ^ 2 * x ≤ s := by rw [hx, mul_add]; linarith
  have s2 : s ≤ (1 + ε) ^ 2 * x := by rw [hx, mul_add]; linarith
  have hs0 : 0 ≤ s := le_trans (mul_nonneg (by positivity) hx0) s1
  have hst : (1 - ε) * s ≤ R.rnd s ∧ R.rnd s ≤ (1 + ε) * s := by
    rcases hx0.eq_or_lt with hx00 | hxp
    · have : s = 0 := le_antisymm (by rw [← hx00] at s2; simpa using s2) hs0
      rw [this, R.zero]; simp
    · have xlo : 1 / (128 * B * B * B * B) ≤ x := by
        rcases hn.eq_or_lt with hn0 | hn0
        · rcases hm.eq_or_lt with hm0 | hm0
          · rw [hx, ← hn0, ← hm0] at hxp; simp at hxp
          · have := (range m gm hm0).1
            have := mul_nonneg hn hd'.le
            linarith
        · have := (range n gn hn0).1
          have := mul_nonneg hm hd'.le
          linarith
      have xhi : x ≤ 2 * (128 * B * B * B * B) := by
        have up : ∀ k : Fl R, Grid (u * u * (u * u)) (128 * B * B * B * B) k → 0 ≤ k.val →
            k.val * (1 / d.val) ≤ 128 * B * B * B * B := by
          intro k gk hk
          rcases hk.eq_or_lt with hk0 | hk0
          · rw [← hk0, zero_mul]; linarith
          · exact (range k gk hk0).2
        have := up n gn hn
        have := up m gm hm
        linarith
      have t1 : 1 / 8 * x ≤ (1 - ε) ^ 2 * x := mul_le_mul_of_nonneg_right f1 hx0
      have t2 : (1 + ε) ^ 2 * x ≤ 4 * x := mul_le_mul_of_nonneg_right f2 hx0
      exact he s (by rw [lowup]; linarith) (by linarith)
  obtain ⟨t1, t2⟩ := hst
  rcases hgap with hg | hg
  · have : R.rnd s < 1 := by
      calc R.rnd s ≤ (1 + ε) * s := t2
        _ ≤ (1 + ε) * ((1 + ε) ^ 2 * x) := mul_le_mul_of_nonneg_left s2 (by linarith)
        _ = x * (1 + ε) ^ 3 := by ring
        _ ≤ (1 - 1 / (8 * (B : F) * B)) * (1 + ε) ^ 3 := mul_le_mul_of_nonneg_right hg (by positivity)
        _ < 1 := hlo
    have hx1 : x < 1 := by linarith
    exact ⟨⟨fun _ => hx1, fun _ => this⟩, ⟨fun _ => hx1.le, fun _ => this.le⟩⟩
  · have : 1 < R.rnd s := by
      calc 1 < (1 + 1 / (8 * (B : F) * B)) * (1 - ε) ^ 3 := hhi
        _ ≤ x * (1 - ε) ^ 3 := mul_le_mul_of_nonneg_right hg (by have : 0 ≤ 1 - ε := by linarith
                                                                 positivity)
        _ = (1 - ε) * ((1 - ε) ^ 2 * x) := by ring
        _ ≤ (1 - ε) * s := mul_le_mul_of_nonneg_left s1 (by linarith)
        _ ≤ _ := t1
    have hx1 : 1 < x := by linarith
    refine ⟨⟨fun h => ?_, fun h => ?_⟩, ⟨fun h => ?_, fun h => ?_⟩⟩ <;> linarith

/-- Lengths that are not zero are at least one step. -/
theorem grid_len {v : Vec2 (Fl R)} {C : ℤ} (hu : 0 < u) (h : OnGrid u C v) (hv : v.exact.length2 ≠ 0) : u * u ≤ v.exact.length2 := by
  obtain ⟨⟨m, _, hm⟩, ⟨n, _, hn⟩⟩ := h
  have e : v.exact.length2 = ((m * m + n * n : ℤ) : F) * (u * u) := by
    simp only [Vec2.length2, exact_x, exact_y, hm, hn]; push_cast; ring
  have hz : m * m + n * n ≠ 0 := by
    intro h0; rw [e, h0] at hv; simp at hv
  have h1 : 1 ≤ m * m + n * n := by
    have := mul_self_nonneg m; have := mul_self_nonneg n; omega
  rw [e]
  have : (1 : F) ≤ ((m * m + n * n : ℤ) : F) := by exact_mod_cast h1
  nlinarith [mul_pos hu hu]

theorem tri_none {K : Type} [Field K] [LinearOrder K] [IsStrictOrderedRing K] {v w : Vec2 K} (h : v.length2 = 0 ∨ w.length2 = 0) :
    v.length2 * w.length2 - v.dot w * v.dot w = 0 := by
  have z : ∀ v : Vec2 K, v.length2 = 0 → v.x = 0 ∧ v.y = 0 := by
    intro v h
    simp only [Vec2.length2] at h
    constructor <;> nlinarith [mul_self_nonneg v.x, mul_self_nonneg v.y]
  rcases h with h | h <;> obtain ⟨hx, hy⟩ := z _ h <;> simp only [Vec2.length2, Vec2.dot, hx, hy] <;> ring

theorem abs_cross_le {a b c d C : ℤ} (ha : |a| ≤ C) (hb : |b| ≤ C) (hc : |c| ≤ C) (hd : |d| ≤ C) :
    |a * b - c * d| ≤ 2 * (C * C) := by
  have h0 : 0 ≤ C := (abs_nonneg a).trans ha
  have h1 : |a * b| ≤ C * C := by rw [abs_mul]; exact mul_le_mul ha hb (abs_nonneg _) h0
  have h2 : |c * d| ≤ C * C := by rw [abs_mul]; exact mul_le_mul hc hd (abs_nonneg _) h0
  have := abs_sub (a * b) (c * d)
  linarith

/-- The barycentric coordinates of a grid point off the line are away from one. -/
theorem TriGrid.gap (hG : TriGrid R u B) {lo mid hi p : Vec2 (Fl R)} (hl : OnGrid u B lo) (hm : OnGrid u B mid)
    (hh : OnGrid u B hi) (hp : OnGrid u B p) (hs : side lo.exact hi.exact p.exact ≠ 0) (N M D : F)
    (hN : N = (hi.exact - mid.exact).length2 * (lo.exact - mid.exact).dot (p.exact - mid.exact) -
      (lo.exact - mid.exact).dot (hi.exact - mid.exact) * (hi.exact - mid.exact).dot (p.exact - mid.exact))
    (hM : M = (lo.exact - mid.exact).length2 * (hi.exact - mid.exact).dot (p.exact - mid.exact) -
      (lo.exact - mid.exact).dot (hi.exact - mid.exact) * (lo.exact - mid.exact).dot (p.exact - mid.exact))
    (hD : D = (lo.exact - mid.exact).length2 * (hi.exact - mid.exact).length2 -
      (lo.exact - mid.exact).dot (hi.exact - mid.exact) * (lo.exact - mid.exact).dot (hi.exact - mid.exact)) (hD0 : 0 < D) :
    (N + M) / D ≤ 1 - 1 / (8 * (B : F) * B) ∨ 1 + 1 / (8 * (B : F) * B) ≤ (N + M) / D := by
  have hu := hG.up
  have hB : (0 : F) < B := by exact_mod_cast hG.pos
  have key : N + M - D = -(side lo.exact hi.exact p.exact *
      ((lo.exact.x - mid.exact.x) * (hi.exact.y - mid.exact.y) - (lo.exact.y - mid.exact.y) * (hi.exact.x - mid.exact.x))) := by
    rw [hN, hM, hD]
    simp only [Vec2.length2, Vec2.dot, Vec2.sub_x, Vec2.sub_y, side]; ring
  have hD2 : D = ((lo.exact.x - mid.exact.x) * (hi.exact.y - mid.exact.y) -
      (lo.exact.y - mid.exact.y) * (hi.exact.x - mid.exact.x)) ^ 2 := by
    rw [hD]; simp only [Vec2.length2, Vec2.dot, Vec2.sub_x, Vec2.sub_y]; ring
  obtain ⟨⟨l1, b1, x1⟩, ⟨l2, b2, x2⟩⟩ := hl
  obtain ⟨⟨m1, c1, y1⟩, ⟨m2, c2, y2⟩⟩ := hm
  obtain ⟨⟨h1, d1, z1⟩, ⟨h2, d2, z2⟩⟩ := hh
  obtain ⟨⟨p1, q1, w1⟩, ⟨p2, q2, w2⟩⟩ := hp
  set S : ℤ := (h1 - l1) * (p2 - l2) - (h2 - l2) * (p1 - l1) with hSdef
  set C : ℤ := (l1 - m1) * (h2 - m2) - (l2 - m2) * (h1 - m1) with hCdef
  have eS : side lo.exact hi.exact p.exact = (S : F) * (u * u) := by
    simp only [side, exact_x, exact_y, x1, x2, z1, z2, w1, w2, hSdef]; push_cast; ring
  have eC : (lo.exact.x - mid.exact.x) * (hi.exact.y - mid.exact.y) -
      (lo.exact.y - mid.exact.y) * (hi.exact.x - mid.exact.x) = (C : F) * (u * u) := by
    simp only [exact_x, exact_y, x1, x2, z1, z2, y1, y2, hCdef]; push_cast; ring
  rw [eS, eC] at key
  rw [eC] at hD2
  have hS0 : S ≠ 0 := by intro h0; rw [eS, h0] at hs; simp at hs
  have hC0 : C ≠ 0 := by intro h0; rw [hD2, h0] at hD0; simp at hD0
  have diff : ∀ {a b : ℤ}, |a| ≤ B → |b| ≤ B → |a - b| ≤ 2 * B := by
    intro a b ha hb; have := abs_sub a b; linarith
  have hCb : |C| ≤ 8 * B * B := by
    have := abs_cross_le (diff b1 c1) (diff d2 c2) (diff b2 c2) (diff d1 c1)
    rw [hCdef]; linarith
  have huu : 0 < u * u := mul_pos hu hu
  have hC0' : (C : F) ≠ 0 := by exact_mod_cast hC0
  have e : (N + M) / D = 1 - (S : F) / C := by
    have : N + M = D - (S : F) * (u * u) * (C * (u * u)) := by linarith
    rw [this, hD2]
    field_simp
  rw [e]
  have habs : 1 / (8 * (B : F) * B) ≤ |(S : F) / C| := by
    rw [abs_div, div_le_div_iff₀ (by positivity) (abs_pos.mpr hC0'), one_mul]
    have h1 : (1 : F) ≤ |(S : F)| := by exact_mod_cast Int.one_le_abs hS0
    have h2 : |(C : F)| ≤ 8 * B * B := by exact_mod_cast hCb
    have : 0 ≤ 8 * (B : F) * B := by positivity
    nlinarith
  rcases le_abs'.mp habs with h | h
  · right; linarith
  · left; linarith

/-- The answer of the triangle test without the closure. -/
theorem tri_answer {K : Type} [LinearOrder K] [Add K] [Sub K] [Mul K] [Div K] [Neg K] [Zero K] [One K]
    (eps : K) (vs : List (Vec2 K)) (h3 : vs.length = 3) (lo mid hi : Vec2 K) (hsort : pySorted yxLt vs = [lo, mid, hi])
    (p : PyPoint K) :
    ((Polygon.fromPoints vs).containsPoint eps p).1 =
      if (lo - mid).isNull eps || (hi - mid).isNull eps then .ok false
      else if (lo - mid).length2 * (hi - mid).length2 - (lo - mid).dot (hi - mid) * (lo - mid).dot (hi - mid) = 0 then .ok false
      else TriClosure.run ⟨mid, lo - mid, hi - mid, (lo - mid).dot (hi - mid), (lo - mid).length2, (hi - mid).length2,
        1 / ((lo - mid).length2 * (hi - mid).length2 - (lo - mid).dot (hi - mid) * (lo - mid).dot (hi - mid)),
        decide ((hi.x - lo.x)*(mid.y - lo.y) - (mid.x - lo.x)*(hi.y - lo.y) > 0)⟩ p := by
  have hv : (Polygon.fromPoints vs).verts = vs := rfl
  have ht : (Polygon.fromPoints vs).triTest = none := by
    simp [Polygon.fromPoints, Polygon.cleared]
  unfold containsPoint
  simp only [hv, h3, if_true]
  unfold pnpTriangle
  rw [ht]
  simp only [hv]
  unfold triangleClosure
  simp only [hsort]
  split_ifs with h1 h2 h3
  · rfl
  · rfl
  · exact absurd (by simpa using h2) h3
  · rename_i h4; exact absurd (by simpa using h4) h2
  · have : ((lo - mid).length2 * (hi - mid).length2 - (lo - mid).dot (hi - mid) * (lo - mid).dot (hi - mid) == 0) = false := by
      simpa using h2
    simp only [pydiv, this, Bool.false_eq_true, if_false, bind, Except.bind, pure, Except.pure]

/-- The three comparisons together. -/
theorem combine {U V : Fl R} {N M D : F} {lead : Bool} (hD : 0 < D) (h1 : U < 0 ↔ N * (1 / D) < 0) (h2 : V < 0 ↔ M * (1 / D) < 0)
    (h3 : 0 < U ↔ 0 < N * (1 / D)) (h4 : 0 < V ↔ 0 < M * (1 / D))
    (h5 : 0 ≤ N → 0 ≤ M → ((U + V).val < 1 ↔ N * (1 / D) + M * (1 / D) < 1) ∧ ((U + V).val ≤ 1 ↔ N * (1 / D) + M * (1 / D) ≤ 1)) :
    (if lead then (Except.ok (decide (N * (1 / D) ≥ 0) && decide (M * (1 / D) ≥ 0) && decide (N * (1 / D) + M * (1 / D) < 1)) : Py Bool)
      else .ok (decide (N * (1 / D) > 0) && decide (M * (1 / D) > 0) && decide (N * (1 / D) + M * (1 / D) ≤ 1))) =
    if lead then (Except.ok (decide (U ≥ 0) && decide (V ≥ 0) && decide (U + V < 1)) : Py Bool)
      else .ok (decide (U > 0) && decide (V > 0) && decide (U + V ≤ 1)) := by
  have hi : 0 < 1 / D := by positivity
  have nn : ∀ k : F, 0 ≤ k * (1 / D) → 0 ≤ k := fun k h => by
    by_contra hc
    have := mul_neg_of_neg_of_pos (not_le.mp hc) hi
    linarith
  have e1 : (N * (1 / D) ≥ 0) ↔ (U ≥ 0) := by rw [ge_iff_le, ge_iff_le, ← not_lt, ← not_lt, h1]
  have e2 : (M * (1 / D) ≥ 0) ↔ (V ≥ 0) := by rw [ge_iff_le, ge_iff_le, ← not_lt, ← not_lt, h2]
  have e3 : (N * (1 / D) > 0) ↔ (U > 0) := h3.symm
  have e4 : (M * (1 / D) > 0) ↔ (V > 0) := h4.symm
  have one : (1 : Fl R).val = 1 := rfl
  cases lead
  · simp only [Bool.false_eq_true, if_false]
    congr 1
    rw [decide_eq_decide.mpr e3, decide_eq_decide.mpr e4]
    by_cases hu : U > 0
    · by_cases hv : V > 0
      · have := (h5 (nn _ (e3.mpr hu).le) (nn _ (e4.mpr hv).le)).2
        congr 1
        rw [decide_eq_decide, ← this, val_le, one]
      · simp only [hv, decide_false, Bool.and_false, Bool.false_and]
    · simp only [hu, decide_false, Bool.false_and]
  · simp only [if_true]
    congr 1
    rw [decide_eq_decide.mpr e1, decide_eq_decide.mpr e2]
    by_cases hu : U ≥ 0
    · by_cases hv : V ≥ 0
      · have := (h5 (nn _ (e1.mpr hu)) (nn _ (e2.mpr hv))).1
        congr 1
        rw [decide_eq_decide, ← this, val_lt, one]
      · simp only [hv, decide_false, Bool.and_false, Bool.false_and]
    · simp only [hu, decide_false, Bool.false_and]

theorem TriGrid.triangle (hG : TriGrid R u B) (eps : Fl R) (eps' : F) (he : (eps * eps).val ≤ u * u)
    (he' : eps' * eps' ≤ u * u) {vs : List (Vec2 (Fl R))} (h3 : vs.length = 3) (h : ∀ v ∈ vs, OnGrid u B v)
    (p : PyPoint (Fl R)) (q : PyPoint F)
    (hq : (∃ v, p = .vec v ∧ q = .vec v.exact ∧ OnGrid u B v) ∨ ∃ a b c d, p = .tup a b ∧ q = .tup c d)
    (hs : ∀ lo ∈ vs, ∀ hi ∈ vs, lo ≠ hi → (∀ v ∈ vs, lo.y ≤ v.y ∧ v.y ≤ hi.y) →
      side lo.exact hi.exact p.toVec.exact ≠ 0) :
    ((Polygon.fromPoints (vs.map Vec2.exact)).containsPoint eps' q).1 = ((Polygon.fromPoints vs).containsPoint eps p).1 := by
  obtain ⟨lo, mid, hi, hsort⟩ : ∃ lo mid hi, pySorted yxLt vs = [lo, mid, hi] := by
    have : (pySorted yxLt vs).length = 3 := by rw [(pySorted_perm _ vs).length_eq, h3]
    rcases hz : pySorted yxLt vs with _ | ⟨a, _ | ⟨b, _ | ⟨c, _ | ⟨d, l⟩⟩⟩⟩ <;> rw [hz] at this <;> simp at this
    exact ⟨a, b, c, rfl⟩
  have hlt : ∀ a b : Vec2 (Fl R), yxLt a.exact b.exact = yxLt a b := by
    intro a b; unfold yxLt; simp only [exact_x, exact_y, val_beq, val_lt]; rfl
  have hsort' : pySorted yxLt (vs.map Vec2.exact) = [lo.exact, mid.exact, hi.exact] := by
    rw [pySorted_map Vec2.exact yxLt yxLt hlt, hsort]; rfl
  have hperm := pySorted_perm yxLt vs
  rw [hsort] at hperm
  have hmem : ∀ v, v ∈ vs ↔ v = lo ∨ v = mid ∨ v = hi := by intro v; rw [← hperm.mem_iff]; simp
  have gl := h lo ((hmem _).mpr (.inl rfl))
  have gm := h mid ((hmem _).mpr (.inr (.inl rfl)))
  have gh := h hi ((hmem _).mpr (.inr (.inr rfl)))
  -- the ends are lowest and highest
  have hpw := pySorted_pairwise yxLt_trans yxLt_total (vs.map Vec2.exact)
  rw [hsort'] at hpw
  simp only [List.pairwise_cons, List.mem_cons, List.not_mem_nil, or_false, forall_eq_or_imp, forall_eq] at hpw
  have o1 := (yxLt_iff _ _).mp hpw.1.1
  have o2 := (yxLt_iff _ _).mp hpw.2.1
  have y1 : lo.y.val ≤ mid.y.val := by rcases o1 with h | h; exacts [h.le, h.1.le]
  have y2 : mid.y.val ≤ hi.y.val := by rcases o2 with h | h; exacts [h.le, h.1.le]
  have hF := hG.fine
  obtain ⟨e0, g0⟩ := hF.vsub gl gm
  obtain ⟨e1, g1⟩ := hF.vsub gh gm
  obtain ⟨d00, g00⟩ := hF.dot g0 g0
  obtain ⟨d01, g01⟩ := hF.dot g0 g1
  obtain ⟨d11, g11⟩ := hF.dot g1 g1
  obtain ⟨hden, gden⟩ := hG.cross' g00 g11 g01 g01
  rw [d00, d01, d11, e0, e1] at hden
  have hden' : ((lo - mid).length2 * (hi - mid).length2 - (lo - mid).dot (hi - mid) * (lo - mid).dot (hi - mid)).val =
      (lo.exact - mid.exact).length2 * (hi.exact - mid.exact).length2 -
        (lo.exact - mid.exact).dot (hi.exact - mid.exact) * (lo.exact - mid.exact).dot (hi.exact - mid.exact) := hden
  have nul : ∀ v : Vec2 (Fl R), OnGrid u (2 * B) v → (v.dot v).val = v.exact.length2 → v.exact.length2 ≠ 0 →
      v.isNull eps = false ∧ v.exact.isNull eps' = false := by
    intro v hv hd hne
    have := grid_len hG.up hv hne
    have e1 : v.length2.val = v.exact.length2 := hd
    unfold Vec2.isNull eps2
    simp only [decide_eq_false_iff_not, not_lt, val_le, e1]
    exact ⟨he.trans this, he'.trans this⟩
  rw [tri_answer eps vs h3 lo mid hi hsort, tri_answer eps' (vs.map Vec2.exact) (by simpa using h3) _ _ _ hsort']
  set D := (lo - mid).length2 * (hi - mid).length2 - (lo - mid).dot (hi - mid) * (lo - mid).dot (hi - mid) with hDdef
  have gD : Grid (u * u * (u * u)) (128 * B * B * B * B) D := gden
  by_cases hz : D.val = 0
  · have hz' : D = 0 := Fl.ext (by rw [hz]; rfl)
    rw [hden'] at hz
    simp only [hz, hz', if_true]
    split <;> split <;> rfl
  · have hz' : D ≠ 0 := fun h0 => hz (by rw [h0]; rfl)
    have hz2 := hz
    rw [hden'] at hz2
    have l0 : (lo.exact - mid.exact).length2 ≠ 0 := fun h0 => hz2 (tri_none (.inl h0))
    have l1 : (hi.exact - mid.exact).length2 ≠ 0 := fun h0 => hz2 (tri_none (.inr h0))
    obtain ⟨n1, n2⟩ := nul _ g0 d00 (by rw [e0]; exact l0)
    obtain ⟨n3, n4⟩ := nul _ g1 d11 (by rw [e1]; exact l1)
    rw [e0] at n2; rw [e1] at n4
    simp only [n1, n2, n3, n4, Bool.or_self, Bool.false_eq_true, if_false, hz', hz2]
    have hD0 : 0 < D.val := by
      refine lt_of_le_of_ne ?_ (Ne.symm hz)
      rw [hden']
      have : (lo.exact - mid.exact).length2 * (hi.exact - mid.exact).length2 -
        (lo.exact - mid.exact).dot (hi.exact - mid.exact) * (lo.exact - mid.exact).dot (hi.exact - mid.exact) =
        ((lo.exact - mid.exact).x * (hi.exact - mid.exact).y - (lo.exact - mid.exact).y * (hi.exact - mid.exact).x) ^ 2 := by
        simp only [Vec2.length2, Vec2.dot]; ring
      rw [this]; exact sq_nonneg _
    rcases hq with ⟨v, rfl, rfl, gv⟩ | ⟨a, b, c, d, rfl, rfl⟩
    · have hlead : ((hi.exact.x - lo.exact.x)*(mid.exact.y - lo.exact.y) - (mid.exact.x - lo.exact.x)*(hi.exact.y - lo.exact.y) > 0) ↔
          ((hi.x - lo.x)*(mid.y - lo.y) - (mid.x - lo.x)*(hi.y - lo.y) > 0) := by
        rw [gt_iff_lt, gt_iff_lt, val_lt, hF.turn gm gl gh, val_zero]
      obtain ⟨e2, g2⟩ := hF.vsub gv gm
      obtain ⟨d02, g02⟩ := hF.dot g0 g2
      obtain ⟨d12, g12⟩ := hF.dot g1 g2
      obtain ⟨hN, gN⟩ := hG.cross' g11 g02 g01 g12
      obtain ⟨hM, gM⟩ := hG.cross' g00 g12 g01 g02
      rw [d11, d02, d01, d12, e0, e1, e2] at hN
      rw [d00, d02, d01, d12, e0, e1, e2] at hM
      have hlohi : lo ≠ hi := by
        rintro rfl
        apply hz2; simp only [Vec2.length2, Vec2.dot]; ring
      have hgap := hG.gap gl gm gh gv (hs lo ((hmem _).mpr (.inl rfl)) hi ((hmem _).mpr (.inr (.inr rfl))) hlohi (by
        intro w hw
        rw [val_le, val_le]
        rcases (hmem w).mp hw with rfl | rfl | rfl
        · exact ⟨le_refl _, y1.trans y2⟩
        · exact ⟨y1, y2⟩
        · exact ⟨y1.trans y2, le_refl _⟩)) _ _ _ hN hM hden' hD0
      have hNs := hG.sign gN gD hD0
      have hMs := hG.sign gM gD hD0
      have hNp := hG.sign_pos gN gD hD0
      have hMp := hG.sign_pos gM gD hD0
      have hsum := hG.sum gN gM gD hD0
      rw [hN, hM] at hsum
      rw [hN] at hNs hNp hgap
      rw [hM] at hMs hMp hgap
      rw [hden'] at hNs hNp hMs hMp hsum hgap
      have hDx : 0 < (lo.exact - mid.exact).length2 * (hi.exact - mid.exact).length2 -
        (lo.exact - mid.exact).dot (hi.exact - mid.exact) * (lo.exact - mid.exact).dot (hi.exact - mid.exact) := by
        rw [← hden']; exact hD0
      have fin := combine (lead := decide ((hi.x - lo.x)*(mid.y - lo.y) - (mid.x - lo.x)*(hi.y - lo.y) > 0)) hDx hNs hMs hNp hMp
        (fun h1 h2 => hsum h1 h2 hgap)
      unfold TriClosure.run
      simp only [PyPoint.sub, bind, Except.bind, pure, Except.pure, decide_eq_decide.mpr hlead]
      exact fin
    · rfl

end Planar
