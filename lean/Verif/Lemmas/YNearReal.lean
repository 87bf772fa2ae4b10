import Verif.Lemmas.YNear
import Verif.Props.ConvexExact
/- Polygons near a convex polygon: the test with two chains gives the winding number of the convex polygon. -/
set_option linter.unusedSectionVars false
namespace Planar
open Spec
namespace Polygon

theorem gap_comm (p q : Vec2 ℝ) : gap p q = gap q p := by
  unfold gap vlen; congr 1; ring

theorem gap_self (p : Vec2 ℝ) : gap p p = 0 := by simp [gap, vlen]

theorem gap_x (p q : Vec2 ℝ) : |p.x - q.x| ≤ gap p q := by
  unfold gap vlen
  apply Real.abs_le_sqrt
  nlinarith [mul_self_nonneg (p.y - q.y)]

theorem gap_y (p q : Vec2 ℝ) : |p.y - q.y| ≤ gap p q := by
  unfold gap vlen
  apply Real.abs_le_sqrt
  nlinarith [mul_self_nonneg (p.x - q.x)]

theorem gap_xy (p q : Vec2 ℝ) : gap p q ≤ |p.x - q.x| + |p.y - q.y| := by
  unfold gap vlen
  apply Real.sqrt_le_iff.mpr
  refine ⟨by positivity, ?_⟩
  have e1 := abs_mul_abs_self (p.x - q.x)
  have e2 := abs_mul_abs_self (p.y - q.y)
  simp only
  nlinarith [mul_nonneg (abs_nonneg (p.x - q.x)) (abs_nonneg (p.y - q.y))]

/-- Points of a segment are not farther from one end than the other end. -/
theorem gap_seg {p q x : Vec2 ℝ} (h : OnEdge (p, q) x) : gap p x ≤ gap p q := by
  obtain ⟨t, t0, t1, hx, hy⟩ := h
  simp only at hx hy
  unfold gap vlen
  apply Real.sqrt_le_sqrt
  simp only [hx, hy]
  have e : (p.x - (p.x + t * (q.x - p.x))) * (p.x - (p.x + t * (q.x - p.x))) + (p.y - (p.y + t * (q.y - p.y))) * (p.y - (p.y + t * (q.y - p.y))) =
      t * t * ((p.x - q.x) * (p.x - q.x) + (p.y - q.y) * (p.y - q.y)) := by ring
  rw [e]
  have h0 : 0 ≤ (p.x - q.x) * (p.x - q.x) + (p.y - q.y) * (p.y - q.y) := add_nonneg (mul_self_nonneg _) (mul_self_nonneg _)
  have h1 : t * t ≤ 1 := by nlinarith
  calc _ ≤ 1 * ((p.x - q.x) * (p.x - q.x) + (p.y - q.y) * (p.y - q.y)) := mul_le_mul_of_nonneg_right h1 h0
    _ = _ := one_mul _

/-- A point that is farther than `D` from the edges, and a point not farther than `D` from it. -/
theorem winding_ball {D : ℝ} {V : List (Vec2 ℝ)} {p q : Vec2 ℝ} (hfar : FarFromEdges D V p) (hq : gap p q ≤ D) :
    winding V p = winding V q := by
  apply winding_const
  intro e he x hx hon
  obtain ⟨t, t0, t1, h1, h2⟩ := hon
  have := hfar e he x ⟨t, t0, t1, h1, h2⟩
  exact absurd ((gap_seg hx).trans hq) (not_le.mpr this)

/-- The crossing of a moved edge is near the edge. -/
theorem near_cross {d : ℝ} {a b A B : Vec2 ℝ} (ha : gap a A ≤ d) (hb : gap b B ≤ d) {y : ℝ}
    (hs : (a.y < y ∧ y ≤ b.y) ∨ (b.y < y ∧ y ≤ a.y)) : ∃ W, OnSeg A B W ∧ gap ⟨crossX a b y, y⟩ W ≤ d := by
  set t : ℝ := (y - a.y) / (b.y - a.y) with ht
  have hne : b.y - a.y ≠ 0 := by
    rcases hs with h | h
    · intro h'; linarith [h.1, h.2]
    · intro h'; linarith [h.1, h.2]
  have t0 : 0 ≤ t ∧ t ≤ 1 := by
    rcases hs with ⟨a, b⟩ | ⟨a, b⟩
    · exact ⟨div_nonneg (by linarith) (by linarith), (div_le_one (by linarith)).mpr (by linarith)⟩
    · exact ⟨div_nonneg_of_nonpos (by linarith) (by linarith), (div_le_one_of_neg (by linarith)).mpr (by linarith)⟩
  obtain ⟨W, hW, gW⟩ := near_between (A := A) (B := B) (p := a) (q := b) (P := A) (Q := B)
    ⟨0, le_rfl, zero_le_one, by simp, by simp⟩ ⟨1, zero_le_one, le_rfl, by simp, by simp⟩ ha hb t0.1 t0.2
  refine ⟨W, hW, ?_⟩
  have hX : (⟨a.x + t * (b.x - a.x), a.y + t * (b.y - a.y)⟩ : Vec2 ℝ) = ⟨crossX a b y, y⟩ := by
    apply Vec2.ext
    · simp only [crossX, ht]; ring
    · simp only [ht]; field_simp; ring
  rwa [hX] at gW

theorem side_at {A B W q : Vec2 ℝ} (hW : OnSeg A B W) (hq : q.y = W.y) : side A B q = (B.y - A.y) * (W.x - q.x) := by
  obtain ⟨t, -, -, hx, hy⟩ := hW
  unfold side
  rw [hq, hx, hy]; ring

theorem onSeg_y {A B W : Vec2 ℝ} (h : OnSeg A B W) : (A.y ≤ W.y ∧ W.y ≤ B.y) ∨ (B.y ≤ W.y ∧ W.y ≤ A.y) := by
  obtain ⟨t, t0, t1, -, hy⟩ := h
  rcases le_total A.y B.y with h | h
  · left; constructor <;> nlinarith
  · right; constructor <;> nlinarith

theorem inHull_onSeg {V : List (Vec2 ℝ)} {e : Vec2 ℝ × Vec2 ℝ} (he : e ∈ edges V) {W : Vec2 ℝ} (hW : OnSeg e.1 e.2 W) : InHull V W := by
  obtain ⟨t, t0, t1, hx, hy⟩ := hW
  exact inHull_between (.vertex _ (edges_mem he).1) (.vertex _ (edges_mem he).2) t0 t1 hx hy

/-- Points of the hull are on the inner side of all edges. -/
theorem hull_sides {σ : ℝ} {V : List (Vec2 ℝ)} (hs : ∀ e ∈ edges V, ∀ v ∈ V, 0 ≤ σ * side e.1 e.2 v) {q : Vec2 ℝ} (hq : InHull V q)
    {e : Vec2 ℝ × Vec2 ℝ} (he : e ∈ edges V) : 0 ≤ σ * side e.1 e.2 q := by
  induction hq with
  | vertex v hv => exact hs e he v hv
  | between p q t _ _ h1 h2 i1 i2 =>
    have : σ * side e.1 e.2 ⟨p.x + t * (q.x - p.x), p.y + t * (q.y - p.y)⟩ =
        (1 - t) * (σ * side e.1 e.2 p) + t * (σ * side e.1 e.2 q) := by unfold side; ring
    rw [this]
    exact add_nonneg (mul_nonneg (sub_nonneg.mpr h2) i1) (mul_nonneg h1 i2)

/-- A broad polygon is not flat. -/
theorem broad_not_flat {d : ℝ} (hd : 0 ≤ d) {V : List (Vec2 ℝ)} (hne : V ≠ []) (hb : Broad d V) : ¬ Flat V := by
  intro hf
  obtain ⟨u, hu, hmax⟩ := list_max (fun v : Vec2 ℝ => -v.x) hne
  obtain ⟨⟨⟨v, hv, hvy⟩, -⟩, w, hw, hwy, hwx⟩ := (hb u hu).1 (fun v hv => by have := hmax v hv; linarith)
  have z : side u v w = 0 := by
    have key : ∀ q, InHull V q → side u v q = 0 := by
      intro q hq
      induction hq with
      | vertex x hx => exact hf u hu v hv x hx
      | between p q t _ _ h1 h2 i1 i2 =>
        have : side u v ⟨p.x + t * (q.x - p.x), p.y + t * (q.y - p.y)⟩ = (1 - t) * side u v p + t * side u v q := by unfold side; ring
        rw [this, i1, i2]; ring
    exact key w hw
  unfold side at z
  rw [hwy] at z
  have : 0 < (u.y - v.y) * (w.x - u.x) := mul_pos (by linarith) (by linarith)
  nlinarith

/-- A point of the hull of a polygon listed anticlockwise that has a distance from the edges is inside. -/
theorem winding_hull_left {V : List (Vec2 ℝ)} (hs : Anticlockwise V) (hf : ¬ Flat V) {Z : Vec2 ℝ} (hZ : InHull V Z) {r : ℝ} (hr : 0 < r)
    (hfar : FarFromEdges r V Z) : winding V Z ≠ 0 := by
  unfold Flat at hf
  push Not at hf
  obtain ⟨a, ha, b, hb, c, hc, hne⟩ := hf
  set o : Vec2 ℝ := ⟨(a.x + b.x + c.x) / 3, (a.y + b.y + c.y) / 3⟩ with ho
  have hy : ¬ (a.y = b.y ∧ a.y = c.y) := by
    rintro ⟨h1, h2⟩; apply hne; unfold side; rw [← h1, ← h2]; ring
  have so : ∀ e ∈ edges V, e.1 ≠ e.2 → 0 < side e.1 e.2 o := by
    intro e he hee
    rw [ho, side_mean]
    have h1 := hs e he a ha
    have h2 := hs e he b hb
    have h3 := hs e he c hc
    by_contra hno
    have hno := not_lt.mp hno
    exact hne (collinear_of_line hee (by linarith) (by linarith) (by linarith))
  have g0 : 0 ≤ gap Z o := Real.sqrt_nonneg _
  set s : ℝ := min 1 (r / (gap Z o + 1)) with hsdef
  have s0 : 0 < s := lt_min zero_lt_one (by positivity)
  have s1 : s ≤ 1 := min_le_left _ _
  have sg : s * gap Z o ≤ r := by
    have : s ≤ r / (gap Z o + 1) := min_le_right _ _
    rw [le_div_iff₀ (by linarith)] at this
    nlinarith
  set Z' : Vec2 ℝ := ⟨Z.x + s * (o.x - Z.x), Z.y + s * (o.y - Z.y)⟩ with hZ'
  have hgap : gap Z Z' ≤ r := by
    refine le_trans (le_of_eq ?_) sg
    unfold gap vlen
    rw [hZ']
    simp only
    have e : (Z.x - (Z.x + s * (o.x - Z.x))) * (Z.x - (Z.x + s * (o.x - Z.x))) + (Z.y - (Z.y + s * (o.y - Z.y))) * (Z.y - (Z.y + s * (o.y - Z.y))) =
        s * s * ((Z.x - o.x) * (Z.x - o.x) + (Z.y - o.y) * (Z.y - o.y)) := by ring
    rw [e, Real.sqrt_mul (mul_self_nonneg s), Real.sqrt_mul_self s0.le]
  rw [winding_ball hfar hgap]
  have hVs : ∀ e ∈ edges V, ∀ v ∈ V, 0 ≤ (1 : ℝ) * side e.1 e.2 v := fun e he v hv => by rw [one_mul]; exact hs e he v hv
  refine winding_of_left' ?_ ?_ ?_
  · intro e he hee
    have h1 := hull_sides hVs hZ he
    have h2 := so e he hee
    have e1 : side e.1 e.2 Z' = (1 - s) * side e.1 e.2 Z + s * side e.1 e.2 o := by rw [hZ']; unfold side; ring
    rw [e1]
    rw [one_mul] at h1
    exact add_pos_of_nonneg_of_pos (mul_nonneg (by linarith) h1) (mul_pos s0 h2)
  · obtain ⟨M, hM, hmax⟩ := list_max (fun v : Vec2 ℝ => v.y) (l := V) (by rintro rfl; simp at ha)
    refine ⟨M, hM, ?_⟩
    have hZy : Z.y ≤ M.y := by
      have := inHull_halfplane hZ (a := 0) (b := 1) (c := M.y) (fun v hv => by have := hmax v hv; linarith)
      linarith
    have h1 := hmax a ha
    have h2 := hmax b hb
    have h3 := hmax c hc
    have hoy : o.y < M.y := by
      rw [ho]; simp only
      by_contra hno
      exact hy ⟨by linarith, by linarith⟩
    rw [hZ']; simp only
    nlinarith
  · obtain ⟨m, hm, hmin⟩ := list_max (fun v : Vec2 ℝ => -v.y) (l := V) (by rintro rfl; simp at ha)
    refine ⟨m, hm, ?_⟩
    have hZy : m.y ≤ Z.y := by
      have := inHull_halfplane hZ (a := 0) (b := -1) (c := -m.y) (fun v hv => by have := hmin v hv; linarith)
      linarith
    have h1 := hmin a ha
    have h2 := hmin b hb
    have h3 := hmin c hc
    have hoy : m.y < o.y := by
      rw [ho]; simp only
      by_contra hno
      exact hy ⟨by linarith, by linarith⟩
    rw [hZ']; simp only
    nlinarith

theorem onSeg_symm {a b q : Vec2 ℝ} (h : OnSeg a b q) : OnSeg b a q := by
  obtain ⟨t, t0, t1, hx, hy⟩ := h
  exact ⟨1 - t, by linarith, by linarith, by rw [hx]; ring, by rw [hy]; ring⟩

/-- The same for both directions. -/
theorem winding_hull {V : List (Vec2 ℝ)} (ho : OneSided V) (hf : ¬ Flat V) {Z : Vec2 ℝ} (hZ : InHull V Z) {r : ℝ} (hr : 0 < r)
    (hfar : FarFromEdges r V Z) : winding V Z ≠ 0 := by
  rcases ho with ho | ho
  · exact winding_hull_left ho hf hZ hr hfar
  · have hrev : Anticlockwise V.reverse := by
      intro e he v hv
      rw [(edges_reverse_perm V).mem_iff] at he
      obtain ⟨⟨a, b⟩, he', rfl⟩ := List.mem_map.mp he
      have := ho _ he' v (List.mem_reverse.mp hv)
      simp only [Prod.swap, side] at this ⊢
      linarith
    have := winding_hull_left hrev (fun h => hf fun a ha b hb c hc =>
      h a (List.mem_reverse.mpr ha) b (List.mem_reverse.mpr hb) c (List.mem_reverse.mpr hc))
      (inHull_mono (fun v hv => List.mem_reverse.mpr hv) hZ) hr (by
        intro E hE q hq
        rw [(edges_reverse_perm V).mem_iff] at hE
        obtain ⟨⟨a, b⟩, he', rfl⟩ := List.mem_map.mp hE
        exact hfar _ he' q (onSeg_symm hq))
    rw [(C48_invariance V Z ⟨0, 0⟩ 0).2.1] at this
    exact fun h => this (by rw [h]; rfl)

theorem side_level {t u w : Vec2 ℝ} (h : w.y = u.y) : side t u w = (u.y - t.y) * (u.x - w.x) := by
  unfold side; rw [h]; ring

set_option maxHeartbeats 1600000 in
/-- The test with the two chains stored for a polygon whose vertices are within `d` of those of a broad convex polygon: farther
than `3 * d` from the edges it gives the winding number of the convex polygon. -/
theorem ymono_near {d D : ℝ} (hd : 0 ≤ d) (hD : 3 * d < D) {ws V : List (Vec2 ℝ)} (hrel : List.Forall₂ (fun w W => gap w W ≤ d) ws V)
    (hne : V ≠ []) (hc : Convex V) (hnn : ∀ e ∈ edges V, e.1 ≠ e.2) (hb : Broad d V) {p : Vec2 ℝ} (hfar : FarFromEdges D V p) :
    pnpYMonotone (splitYPolylines ws) p = .ok (winding V p != 0) := by
  have hlen := hrel.length_eq
  have hwne : ws ≠ [] := by rintro rfl; apply hne; exact List.eq_nil_of_length_eq_zero hlen.symm
  have hflat := broad_not_flat hd hne hb
  obtain ⟨hmin, hmax, hleft, hright⟩ := yExtremes_spec hwne
  have hss := split_sect hwne
  generalize hE : yExtremes ws = E at hmin hmax hleft hright hss
  obtain ⟨m, hm, hmy, hmlo, hmf⟩ := id hmin
  obtain ⟨M, hM, hMy, hMhi, hMf⟩ := id hmax
  obtain ⟨L, hL, hLx, hLlo, hLf⟩ := id hleft
  obtain ⟨R, hR, hRx, hRhi, hRf⟩ := id hright
  have lo : ∀ v ∈ ws, m.y ≤ v.y := fun v hv => by have := hmlo v hv; simp only at this hmy; linarith
  have hi : ∀ v ∈ ws, v.y ≤ M.y := fun v hv => by have := hMhi v hv; simp only at this hMy; linarith
  have le : ∀ v ∈ ws, L.x ≤ v.x := fun v hv => by have := hLlo v hv; simp only at this hLx; linarith
  have ri : ∀ v ∈ ws, v.x ≤ R.x := fun v hv => by have := hRhi v hv; simp only at this hRx; linarith
  -- the vertices of `V` with the same numbers
  have get : ∀ {k : Nat} {v : Vec2 ℝ}, ws[k]? = some v → ∃ W, V[k]? = some W ∧ W ∈ V ∧ gap v W ≤ d := by
    intro k v hk
    obtain ⟨hl, rfl⟩ := List.getElem?_eq_some_iff.mp hk
    have hl' : k < V.length := by rw [← hlen]; exact hl
    exact ⟨V[k], List.getElem?_eq_getElem hl', List.getElem_mem _, hrel.get hl hl'⟩
  have back : ∀ {W : Vec2 ℝ}, W ∈ V → ∃ v ∈ ws, gap v W ≤ d := by
    intro W hW
    have := forall2_mem hrel.flip hW
    exact this
  obtain ⟨x, hx, xmem, xm⟩ := get hm
  obtain ⟨y, hy, ymem, yM⟩ := get hM
  obtain ⟨l, hl, lmem, lL⟩ := get hL
  obtain ⟨r, hr, rmem, rR⟩ := get hR
  have absl : ∀ {a b c : ℝ}, |a - b| ≤ c → a ≤ b + c ∧ b ≤ a + c := fun h => by
    rw [abs_le] at h; constructor <;> linarith [h.1, h.2]
  have gy : ∀ {a b : Vec2 ℝ}, gap a b ≤ d → a.y ≤ b.y + d ∧ b.y ≤ a.y + d := fun h => absl ((gap_y _ _).trans h)
  have gx : ∀ {a b : Vec2 ℝ}, gap a b ≤ d → a.x ≤ b.x + d ∧ b.x ≤ a.x + d := fun h => absl ((gap_x _ _).trans h)
  have xlo : ∀ v ∈ V, x.y ≤ v.y + 2 * d := by
    intro v hv
    obtain ⟨w, hw, gw⟩ := back hv
    linarith [(gy xm).2, lo w hw, (gy gw).1]
  have yhi : ∀ v ∈ V, v.y ≤ y.y + 2 * d := by
    intro v hv
    obtain ⟨w, hw, gw⟩ := back hv
    linarith [(gy yM).1, hi w hw, (gy gw).2]
  have llo : ∀ v ∈ V, l.x ≤ v.x + 2 * d := by
    intro v hv
    obtain ⟨w, hw, gw⟩ := back hv
    linarith [(gx lL).2, le w hw, (gx gw).1]
  have rhi : ∀ v ∈ V, v.x ≤ r.x + 2 * d := by
    intro v hv
    obtain ⟨w, hw, gw⟩ := back hv
    linarith [(gx rR).1, ri w hw, (gx gw).2]
  obtain ⟨⟨⟨l1, l1m, l1y⟩, l2, l2m, l2y⟩, wl, wlh, wly, wlx⟩ := (hb l lmem).1 llo
  obtain ⟨⟨⟨r1, r1m, r1y⟩, r2, r2m, r2y⟩, wr, wrh, wry, wrx⟩ := (hb r rmem).2 rhi
  have hij : E.minI ≠ E.maxI := by
    intro h
    have hmM : m = M := by rw [h, hM] at hm; injection hm with hm; exact hm.symm
    obtain ⟨w1, hw1, g1⟩ := back l1m
    obtain ⟨w2, hw2, g2⟩ := back l2m
    have := lo w1 hw1
    have := hi w2 hw2
    have := lo w2 hw2
    have := hi w1 hw1
    rw [hmM] at *
    linarith [(gy g1).1, (gy g1).2, (gy g2).1, (gy g2).2]
  have hi_lt : E.minI < V.length := (List.getElem?_eq_some_iff.mp hx).1
  have hM_lt : E.maxI < V.length := (List.getElem?_eq_some_iff.mp hy).1
  obtain ⟨x', y', B, B', e1, e2, e3, e4, hperm, hinU, hinD⟩ := sect_form hij hi_lt hM_lt
  obtain rfl : x = x' := by rw [hx] at e1; exact Option.some.inj e1
  obtain rfl : y = y' := by rw [hy] at e2; exact Option.some.inj e2
  obtain ⟨m', M', C, C', f1, f2, f3, f4, -⟩ := sect_form (l := ws) hij (by rw [hlen]; exact hi_lt) (by rw [hlen]; exact hM_lt)
  obtain rfl : m = m' := by rw [hm] at f1; exact Option.some.inj f1
  obtain rfl : M = M' := by rw [hM] at f2; exact Option.some.inj f2
  -- the edges of the two chains
  have edU : ∀ {e}, e ∈ edgesFrom x (B ++ [y]) → e ∈ edges V := fun he => hperm.mem_iff.mp (List.mem_append_left _ he)
  have edD : ∀ {e}, e ∈ edgesFrom y (B' ++ [x]) → e ∈ edges V := fun he => hperm.mem_iff.mp (List.mem_append_right _ he)
  have pickU : ∀ {a b}, Adj (sect ws E.minI E.maxI) a b → ∃ A Z, gap a A ≤ d ∧ gap b Z ≤ d ∧ (A, Z) ∈ edgesFrom x (B ++ [y]) := by
    intro a b hab
    obtain ⟨A, Z, hAZ, h1, h2⟩ := adj_rel (sect_rel hrel E.minI E.maxI) hab
    rw [e3] at hAZ
    exact ⟨A, Z, h1, h2, adj_edge hAZ⟩
  have pickD : ∀ {a b}, Adj (sect ws E.maxI E.minI).reverse a b → ∃ A Z, gap a A ≤ d ∧ gap b Z ≤ d ∧ (Z, A) ∈ edgesFrom y (B' ++ [x]) := by
    intro a b hab
    obtain ⟨Z, A, hAZ, h1, h2⟩ := adj_rel (sect_rel hrel E.maxI E.minI) (adj_reverse hab)
    rw [e4] at hAZ
    exact ⟨A, Z, h2, h1, adj_edge hAZ⟩
  have memS : ∀ {i j : Nat} {v : Vec2 ℝ}, v ∈ sect ws i j → v ∈ ws := by
    intro i j v hv
    unfold sect at hv
    split at hv
    · exact List.mem_of_mem_take (List.mem_of_mem_drop hv)
    · rcases List.mem_append.mp hv with h | h
      exacts [List.mem_of_mem_drop h, List.mem_of_mem_take h]
  -- the test with the two chains
  have testUD := ymono_spec (l := sect ws E.minI E.maxI) (r := (sect ws E.maxI E.minI).reverse) (ml := m) (Ml := M) (mr := m) (Mr := M)
    (by rw [f3]; rfl) (by rw [f3, ← List.cons_append, List.getLast?_concat]) (by rw [f4]; simp) (by rw [f4, List.getLast?_reverse]; rfl) rfl rfl
    (fun v hv => lo v (by
      rcases List.mem_append.mp hv with h | h
      exacts [memS h, memS (List.mem_reverse.mp h)]))
    (fun v hv => hi v (by
      rcases List.mem_append.mp hv with h | h
      exacts [memS h, memS (List.mem_reverse.mp h)])) p
  have testDU := ymono_spec (r := sect ws E.minI E.maxI) (l := (sect ws E.maxI E.minI).reverse) (ml := m) (Ml := M) (mr := m) (Mr := M)
    (by rw [f4]; simp) (by rw [f4, List.getLast?_reverse]; rfl) (by rw [f3]; rfl) (by rw [f3, ← List.cons_append, List.getLast?_concat]) rfl rfl
    (fun v hv => lo v (by
      rcases List.mem_append.mp hv with h | h
      exacts [memS (List.mem_reverse.mp h), memS h]))
    (fun v hv => hi v (by
      rcases List.mem_append.mp hv with h | h
      exacts [memS (List.mem_reverse.mp h), memS h])) p
  -- the crossing of an edge of a stored chain
  have crossU : ∀ {a b}, Adj (sect ws E.minI E.maxI) a b → a.y < p.y → p.y ≤ b.y →
      ∃ e W, e ∈ edgesFrom x (B ++ [y]) ∧ OnSeg e.1 e.2 W ∧ gap ⟨crossX a b p.y, p.y⟩ W ≤ d := by
    intro a b hab h1 h2
    obtain ⟨A, Z, g1, g2, he⟩ := pickU hab
    obtain ⟨W, hW, gW⟩ := near_cross g1 g2 (.inl ⟨h1, h2⟩)
    exact ⟨_, W, he, hW, gW⟩
  have crossD : ∀ {a b}, Adj (sect ws E.maxI E.minI).reverse a b → a.y < p.y → p.y ≤ b.y →
      ∃ e W, e ∈ edgesFrom y (B' ++ [x]) ∧ OnSeg e.1 e.2 W ∧ gap ⟨crossX a b p.y, p.y⟩ W ≤ d := by
    intro a b hab h1 h2
    obtain ⟨A, Z, g1, g2, he⟩ := pickD hab
    obtain ⟨W, hW, gW⟩ := near_cross g1 g2 (.inl ⟨h1, h2⟩)
    exact ⟨_, W, he, onSeg_symm hW, gW⟩
  by_cases hw : winding V p = 0
  · -- outside: no two crossings around the point
    have no : ∀ {e f : Vec2 ℝ × Vec2 ℝ} {W W' : Vec2 ℝ} {X X' : ℝ}, e ∈ edges V → f ∈ edges V → OnSeg e.1 e.2 W → OnSeg f.1 f.2 W' →
        gap ⟨X, p.y⟩ W ≤ d → gap ⟨X', p.y⟩ W' ≤ d → X ≤ p.x → p.x < X' → False := by
      intro e f W W' X X' he hf hW hW' gW gW' h1 h2
      have hlt : 0 < X' - X := by linarith
      obtain ⟨Z, hZ, gZ⟩ := near_between (A := W) (B := W') (p := ⟨X, p.y⟩) (q := ⟨X', p.y⟩) (P := W) (Q := W')
        ⟨0, le_rfl, zero_le_one, by simp, by simp⟩ ⟨1, zero_le_one, le_rfl, by simp, by simp⟩ gW gW'
        (t := (p.x - X) / (X' - X)) (div_nonneg (by linarith) hlt.le) ((div_le_one hlt).mpr (by linarith))
      have hp : (⟨X + (p.x - X) / (X' - X) * (X' - X), p.y + (p.x - X) / (X' - X) * (p.y - p.y)⟩ : Vec2 ℝ) = p := by
        apply Vec2.ext
        · simp only; rw [div_mul_cancel₀ _ hlt.ne']; ring
        · simp
      simp only at gZ
      rw [hp] at gZ
      obtain ⟨t, t0, t1, zx, zy⟩ := hZ
      have hull : InHull V Z := inHull_between (inHull_onSeg he hW) (inHull_onSeg hf hW') t0 t1 zx zy
      refine winding_hull hc.1 hflat hull (r := D - d) (by linarith) ?_ ?_
      · intro G hG q hq
        have h1 := hfar G hG q hq
        have h2 := gap_triangle p Z q
        linarith
      · rw [← winding_ball hfar (q := Z) (by linarith)]; exact hw
    rw [hw]
    rcases (hss hij).1 with h | h
    · rw [h]
      by_cases hin : m.y < p.y ∧ p.y ≤ M.y
      · obtain ⟨a, b, c, e, hab, h1, h2, hce, h3, h4, heq⟩ := testUD.2 hin.1 hin.2
        rw [heq]
        obtain ⟨e1, W1, he1, s1, g1⟩ := crossU hab h1 h2
        obtain ⟨e2, W2, he2, s2, g2⟩ := crossD hce h3 h4
        by_cases q1 : crossX a b p.y ≤ p.x
        · have q2 : ¬ p.x < crossX c e p.y := fun q2 => no (edU he1) (edD he2) s1 s2 g1 g2 q1 q2
          simp [q1, q2]
        · simp [q1]
      · rw [testUD.1 hin]; rfl
    · rw [h]
      by_cases hin : m.y < p.y ∧ p.y ≤ M.y
      · obtain ⟨a, b, c, e, hab, h1, h2, hce, h3, h4, heq⟩ := testDU.2 hin.1 hin.2
        rw [heq]
        obtain ⟨e1, W1, he1, s1, g1⟩ := crossD hab h1 h2
        obtain ⟨e2, W2, he2, s2, g2⟩ := crossU hce h3 h4
        by_cases q1 : crossX a b p.y ≤ p.x
        · have q2 : ¬ p.x < crossX c e p.y := fun q2 => no (edD he1) (edU he2) s1 s2 g1 g2 q1 q2
          simp [q1, q2]
        · simp [q1]
      · rw [testDU.1 hin]; rfl
  · -- inside
    have hwin : ∀ q, gap p q ≤ D → winding V q ≠ 0 := fun q hq => by rw [← winding_ball hfar hq]; exact hw
    have D0 : 0 < D := by linarith
    have xlow : x.y < p.y - d := by
      have := hwin ⟨p.x, p.y - D⟩ (by
        refine (gap_xy _ _).trans (le_of_eq ?_)
        simp [abs_of_pos D0])
      by_contra hno
      refine this (winding_range (m := ⟨0, x.y - 2 * d⟩) (M := ⟨0, y.y + 2 * d⟩) (fun v hv => ?_) (fun v hv => ?_) ?_)
      · have := xlo v hv; simp only; linarith
      · have := yhi v hv; simp only; linarith
      · simp only; rintro ⟨h1, -⟩; linarith
    have yhigh : p.y + d < y.y := by
      have := hwin ⟨p.x, p.y + D⟩ (by
        refine (gap_xy _ _).trans (le_of_eq ?_)
        simp [abs_of_pos D0])
      by_contra hno
      refine this (winding_range (m := ⟨0, x.y - 2 * d⟩) (M := ⟨0, y.y + 2 * d⟩) (fun v hv => ?_) (fun v hv => ?_) ?_)
      · have := xlo v hv; simp only; linarith
      · have := yhi v hv; simp only; linarith
      · simp only; rintro ⟨-, h2⟩; linarith
    have pin : m.y < p.y ∧ p.y ≤ M.y := ⟨by linarith [(gy xm).1], by linarith [(gy yM).2]⟩
    -- directions of the edges
    have pwU : ∀ h, (edgesFrom x (B ++ [y])).Pairwise (fun e f => ¬ (Up h e ∧ Up h f)) := by
      intro h
      have := (one_crossing hc h).1
      rw [← hperm.pairwise_iff (fun h h' => h ⟨h'.2, h'.1⟩)] at this
      exact (List.pairwise_append.mp this).1
    have pwD : ∀ h, (edgesFrom y (B' ++ [x])).Pairwise (fun e f => ¬ (Dn h e ∧ Dn h f)) := by
      intro h
      have := (one_crossing hc h).2
      rw [← hperm.pairwise_iff (fun h h' => h ⟨h'.2, h'.1⟩)] at this
      exact (List.pairwise_append.mp this).2.1
    have goesU : ∀ {e : Vec2 ℝ × Vec2 ℝ} {W : Vec2 ℝ}, e ∈ edgesFrom x (B ++ [y]) → OnSeg e.1 e.2 W → x.y < W.y → W.y < y.y → e.1.y < e.2.y := by
      intro e W he hW h1 h2
      have hle := chain_up (path_ends x y B) pwU he (onSeg_y hW) h1 h2
      refine lt_of_le_of_ne hle fun heq => ?_
      have hWy : W.y = e.1.y := by
        rcases onSeg_y hW with h | h <;> linarith [h.1, h.2]
      rw [hWy] at h1 h2
      exact not_level hc.1 (edU he) (hnn e (edU he)) xmem ymem h1 h2 heq
    have goesD : ∀ {e : Vec2 ℝ × Vec2 ℝ} {W : Vec2 ℝ}, e ∈ edgesFrom y (B' ++ [x]) → OnSeg e.1 e.2 W → x.y < W.y → W.y < y.y → e.2.y < e.1.y := by
      intro e W he hW h1 h2
      have hle := chain_dn (path_ends y x B') pwD he (onSeg_y hW) h1 h2
      refine lt_of_le_of_ne hle fun heq => ?_
      have hWy : W.y = e.1.y := by
        rcases onSeg_y hW with h | h <;> linarith [h.1, h.2]
      rw [hWy] at h1 h2
      exact not_level hc.1 (edD he) (hnn e (edD he)) xmem ymem h1 h2 heq.symm
    obtain ⟨σ, hσ, hs⟩ : ∃ σ : ℝ, (σ = 1 ∨ σ = -1) ∧ ∀ e ∈ edges V, ∀ v ∈ V, 0 ≤ σ * side e.1 e.2 v := by
      rcases hc.1 with ho | ho
      · exact ⟨1, .inl rfl, fun e he v hv => by rw [one_mul]; exact ho e he v hv⟩
      · exact ⟨-1, .inr rfl, fun e he v hv => by have := ho e he v hv; linarith⟩
    -- where the crossings are
    have place : ∀ {e : Vec2 ℝ × Vec2 ℝ} {W : Vec2 ℝ} {X : ℝ}, e ∈ edges V → OnSeg e.1 e.2 W → gap ⟨X, p.y⟩ W ≤ d →
        x.y < W.y ∧ W.y < y.y ∧ 0 ≤ σ * ((e.2.y - e.1.y) * (W.x - p.x)) ∧ 2 * d < |W.x - p.x| ∧ |X - W.x| ≤ d := by
      intro e W X he hW gW
      have hy1 := gy gW
      simp only at hy1
      have hq : gap p ⟨p.x, W.y⟩ ≤ D := by
        refine (gap_xy _ _).trans ?_
        have := (gap_y _ _).trans gW
        simp only [sub_self, abs_zero, zero_add] at this ⊢
        linarith
      have hhull := inHull_of_winding (hwin _ hq)
      have hside := hull_sides hs hhull he
      rw [side_at hW (q := ⟨p.x, W.y⟩) rfl] at hside
      have hf := hfar e he W hW
      have h2 := gap_xy p W
      have h3 := (gap_y _ _).trans gW
      simp only at h3
      have h4 := abs_sub_comm p.x W.x
      refine ⟨by linarith, by linarith, hside, by linarith, (gap_x _ _).trans gW⟩
    have absor : ∀ {X w : ℝ}, 2 * d < |w - p.x| → |X - w| ≤ d → 0 ≤ w - p.x → 0 < X - p.x := by
      intro X w h1 h2 h3
      rw [abs_of_nonneg h3] at h1
      linarith [(abs_le.mp h2).1]
    have absor' : ∀ {X w : ℝ}, 2 * d < |w - p.x| → |X - w| ≤ d → w - p.x ≤ 0 → X - p.x < 0 := by
      intro X w h1 h2 h3
      rw [abs_of_nonpos h3] at h1
      linarith [(abs_le.mp h2).2]
    -- the leftmost and the rightmost vertex
    have lne1 : E.leftI ≠ E.minI := by
      intro h; rw [h, hx] at hl; injection hl with hl; rw [hl] at xlo; have := xlo l1 l1m; linarith
    have lne2 : E.leftI ≠ E.maxI := by
      intro h; rw [h, hy] at hl; injection hl with hl; rw [hl] at yhi; have := yhi l2 l2m; linarith
    have rne1 : E.rightI ≠ E.minI := by
      intro h; rw [h, hx] at hr; injection hr with hr; rw [hr] at xlo; have := xlo r1 r1m; linarith
    have rne2 : E.rightI ≠ E.maxI := by
      intro h; rw [h, hy] at hr; injection hr with hr; rw [hr] at yhi; have := yhi r2 r2m; linarith
    have inU : ∀ {u : Vec2 ℝ}, u ∈ B → x.y < u.y → u.y < y.y → ∃ t, t.y < u.y ∧ (t, u) ∈ edges V := by
      intro u hu h1 h2
      obtain ⟨t, ht⟩ := edge_into (a := x) (l := B ++ [y]) (List.mem_append_left _ hu)
      exact ⟨t, goesU ht (W := u) ⟨1, zero_le_one, le_rfl, by simp, by simp⟩ h1 h2, edU ht⟩
    have inD : ∀ {u : Vec2 ℝ}, u ∈ B' → x.y < u.y → u.y < y.y → ∃ t, u.y < t.y ∧ (t, u) ∈ edges V := by
      intro u hu h1 h2
      obtain ⟨t, ht⟩ := edge_into (a := y) (l := B' ++ [x]) (List.mem_append_left _ hu)
      exact ⟨t, goesD ht (W := u) ⟨1, zero_le_one, le_rfl, by simp, by simp⟩ h1 h2, edD ht⟩
    have ly : x.y < l.y ∧ l.y < y.y := ⟨by have := xlo l1 l1m; linarith, by have := yhi l2 l2m; linarith⟩
    have ry : x.y < r.y ∧ r.y < y.y := ⟨by have := xlo r1 r1m; linarith, by have := yhi r2 r2m; linarith⟩
    have lpl : (σ = 1 → ¬ Inside E.minI E.leftI E.maxI) ∧ (σ = -1 → ¬ Inside E.maxI E.leftI E.minI) := by
      constructor
      · intro h hin
        obtain ⟨t, ht, he⟩ := inU (hinU _ _ hl hin) ly.1 ly.2
        have := hull_sides hs wlh he
        rw [side_level wly, h, one_mul] at this
        exact absurd this (not_le.mpr (mul_neg_of_pos_of_neg (by linarith) (by linarith)))
      · intro h hin
        obtain ⟨t, ht, he⟩ := inD (hinD _ _ hl hin) ly.1 ly.2
        have := hull_sides hs wlh he
        rw [side_level wly, h] at this
        have h2 := mul_pos_of_neg_of_neg (show l.y - t.y < 0 by linarith) (show l.x - wl.x < 0 by linarith)
        linarith
    have rpl : (σ = 1 → ¬ Inside E.maxI E.rightI E.minI) ∧ (σ = -1 → ¬ Inside E.minI E.rightI E.maxI) := by
      constructor
      · intro h hin
        obtain ⟨t, ht, he⟩ := inD (hinD _ _ hr hin) ry.1 ry.2
        have := hull_sides hs wrh he
        rw [side_level wry, h, one_mul] at this
        exact absurd this (not_le.mpr (mul_neg_of_neg_of_pos (by linarith) (by linarith)))
      · intro h hin
        obtain ⟨t, ht, he⟩ := inU (hinU _ _ hr hin) ry.1 ry.2
        have := hull_sides hs wrh he
        rw [side_level wry, h] at this
        have h2 := mul_pos (show 0 < r.y - t.y by linarith) (show 0 < r.x - wr.x by linarith)
        linarith
    have hw' : (winding V p != 0) = true := by simpa using hw
    rw [hw']
    rcases hσ with rfl | rfl
    · have i1 := (inside_or hij lne1 lne2).resolve_left (lpl.1 rfl)
      have i2 := (inside_or hij rne1 rne2).resolve_right (rpl.1 rfl)
      rw [(hss hij).2.2 i1 i2]
      obtain ⟨a, b, c, e, hab, h1, h2, hce, h3, h4, heq⟩ := testDU.2 pin.1 pin.2
      rw [heq]
      obtain ⟨e1, W1, he1, s1, g1⟩ := crossD hab h1 h2
      obtain ⟨e2, W2, he2, s2, g2⟩ := crossU hce h3 h4
      obtain ⟨a1, a2, a3, a4, a5⟩ := place (edD he1) s1 g1
      obtain ⟨b1, b2, b3, b4, b5⟩ := place (edU he2) s2 g2
      have d1 := goesD he1 s1 a1 a2
      have d2 := goesU he2 s2 b1 b2
      have q1 : crossX a b p.y - p.x < 0 := absor' a4 a5 (by
        by_contra hno
        have := mul_neg_of_neg_of_pos (show e1.2.y - e1.1.y < 0 by linarith) (not_le.mp hno)
        linarith)
      have q2 : 0 < crossX c e p.y - p.x := absor b4 b5 (by
        by_contra hno
        have := mul_neg_of_pos_of_neg (show 0 < e2.2.y - e2.1.y by linarith) (not_le.mp hno)
        linarith)
      have q1 : crossX a b p.y ≤ p.x := by linarith
      have q2 : p.x < crossX c e p.y := by linarith
      simp [q1, q2]
    · have i1 := (inside_or hij lne1 lne2).resolve_right (lpl.2 rfl)
      have i2 := (inside_or hij rne1 rne2).resolve_left (rpl.2 rfl)
      rw [(hss hij).2.1 i1 i2]
      obtain ⟨a, b, c, e, hab, h1, h2, hce, h3, h4, heq⟩ := testUD.2 pin.1 pin.2
      rw [heq]
      obtain ⟨e1, W1, he1, s1, g1⟩ := crossU hab h1 h2
      obtain ⟨e2, W2, he2, s2, g2⟩ := crossD hce h3 h4
      obtain ⟨a1, a2, a3, a4, a5⟩ := place (edU he1) s1 g1
      obtain ⟨b1, b2, b3, b4, b5⟩ := place (edD he2) s2 g2
      have d1 := goesU he1 s1 a1 a2
      have d2 := goesD he2 s2 b1 b2
      have q1 : crossX a b p.y - p.x < 0 := absor' a4 a5 (by
        by_contra hno
        have := mul_pos (show 0 < e1.2.y - e1.1.y by linarith) (not_le.mp hno)
        linarith)
      have q2 : 0 < crossX c e p.y - p.x := absor b4 b5 (by
        by_contra hno
        have := mul_pos_of_neg_of_neg (show e2.2.y - e2.1.y < 0 by linarith) (not_le.mp hno)
        linarith)
      have q1 : crossX a b p.y ≤ p.x := by linarith
      have q2 : p.x < crossX c e p.y := by linarith
      simp [q1, q2]

end Polygon
end Planar
