import Verif.Props.Simple
import Verif.Lemmas.Split
/- C46 for convex polygons. -/
set_option linter.unusedSectionVars false
namespace Planar
open Spec Polygon
variable {K : Type} [Field K] [LinearOrder K] [IsStrictOrderedRing K]

theorem lex_add {p v : Vec2 K} {α β : K} (hv : v.x ≠ 0 ∨ v.y ≠ 0)
    (h : LexLe ⟨p.x + α * v.x, p.y + α * v.y⟩ ⟨p.x + β * v.x, p.y + β * v.y⟩) :
    (LexLe ⟨0, 0⟩ v → α ≤ β) ∧ (LexLe v ⟨0, 0⟩ → β ≤ α) := by
  unfold LexLe at *
  simp only at *
  constructor
  · intro hv'
    by_contra hc
    push Not at hc
    rcases hv' with h1 | ⟨h1, h2⟩
    · rcases h with h | ⟨h, -⟩ <;> nlinarith
    · have h2 : 0 < v.y := lt_of_le_of_ne h2 (by rcases hv with hv | hv; exact absurd h1.symm hv; exact hv.symm)
      rw [← h1] at h
      rcases h with h | ⟨-, h⟩
      · simp at h
      · nlinarith
  · intro hv'
    by_contra hc
    push Not at hc
    rcases hv' with h1 | ⟨h1, h2⟩
    · rcases h with h | ⟨h, -⟩ <;> nlinarith
    · have h2 : v.y < 0 := lt_of_le_of_ne h2 (by rcases hv with hv | hv; exact absurd h1 hv; exact hv)
      rw [h1] at h
      rcases h with h | ⟨-, h⟩
      · simp at h
      · nlinarith

theorem pairwise_or {α : Type} {R : α → α → Prop} {l : List α} (h : l.Pairwise R) {a b : α} (ha : a ∈ l) (hb : b ∈ l)
    (hne : a ≠ b) : R a b ∨ R b a := by
  obtain ⟨i, hi, rfl⟩ := List.getElem_of_mem ha
  obtain ⟨j, hj, rfl⟩ := List.getElem_of_mem hb
  rw [List.pairwise_iff_getElem] at h
  rcases lt_trichotomy i j with hij | hij | hij
  · exact .inl (h i j hi hj hij)
  · subst hij; exact absurd rfl hne
  · exact .inr (h j i hj hi hij)

/-- Edges of a convex polygon on the same line in the same direction do not overlap. -/
theorem same_dir {vs : List (Vec2 K)} (hc : OnceAround vs) {e f : Vec2 K × Vec2 K} (he : e ∈ edges vs) (hf : f ∈ edges vs)
    (hne : e ≠ f) {v : Vec2 K} (hv : v.x ≠ 0 ∨ v.y ≠ 0) (P : K → Vec2 K) (p : Vec2 K)
    (hP : ∀ α, P α = ⟨p.x + α * v.x, p.y + α * v.y⟩) (h0 : e.1 = P 0) (h1 : e.2 = P 1)
    {u w : K} (huw : u < w) (hf1 : f.1 = P u) (hf2 : f.2 = P w) : 1 ≤ u ∨ w ≤ 0 := by
  obtain ⟨there, back, hr, ht, hb⟩ := hc
  have hvs : vs ≠ [] := by rintro rfl; simp [edges] at he
  obtain ⟨z, hz⟩ := path_rotate (edges_path hvs) hr
  obtain ⟨y, hz1, hz2⟩ := isPath_append.mp hz
  have p1 := (path_lex hz1 ht).2
  have p2 := path_lex' hz2 hb
  have tot : LexLe ⟨0, 0⟩ v ∨ LexLe v ⟨0, 0⟩ := by
    unfold LexLe; simp only
    rcases lt_trichotomy 0 v.x with h | h | h
    · exact .inl (.inl h)
    · rcases le_total 0 v.y with h' | h'
      · exact .inl (.inr ⟨h, h'⟩)
      · exact .inr (.inr ⟨h.symm, h'⟩)
    · exact .inr (.inl h)
  have memE := hr.mem_iff.mp he
  have memF := hr.mem_iff.mp hf
  rw [List.mem_append] at memE memF
  rcases tot with hv' | hv'
  · have le : ∀ {α β : K}, LexLe (P α) (P β) → α ≤ β := fun {α β} h => by
      rw [hP, hP] at h; exact (lex_add hv h).1 hv'
    have hE : e ∈ there := by
      refine memE.resolve_right fun h => ?_
      have := hb e h
      rw [h0, h1] at this
      have := le this
      linarith
    have hF : f ∈ there := by
      refine memF.resolve_right fun h => ?_
      have := hb f h
      rw [hf2, hf1] at this
      have := le this
      linarith
    rcases pairwise_or p1 hE hF hne with h | h
    · rw [h1, hf1] at h; exact .inl (le h)
    · rw [hf2, h0] at h; exact .inr (le h)
  · have le : ∀ {α β : K}, LexLe (P α) (P β) → β ≤ α := fun {α β} h => by
      rw [hP, hP] at h; exact (lex_add hv h).2 hv'
    have hE : e ∈ back := by
      refine memE.resolve_left fun h => ?_
      have := ht e h
      rw [h0, h1] at this
      have := le this
      linarith
    have hF : f ∈ back := by
      refine memF.resolve_left fun h => ?_
      have := ht f h
      rw [hf2, hf1] at this
      have := le this
      linarith
    rcases pairwise_or p2 hE hF hne with h | h
    · rw [h1, hf1] at h; exact .inl (le h)
    · rw [hf2, h0] at h; exact .inr (le h)

theorem flat_of_line {vs : List (Vec2 K)} {a b : Vec2 K} (hab : a ≠ b) (h : ∀ v ∈ vs, side a b v = 0) : Flat vs := by
  intro p hp q hq r hr
  have h1 := h p hp
  have h2 := h q hq
  have h3 := h r hr
  simp only [side] at *
  by_cases hx : b.x - a.x = 0
  · have hy : b.y - a.y ≠ 0 := fun hy => hab (Vec2.ext (by linarith) (by linarith))
    have e1 : p.x - a.x = 0 := by simpa [hx, hy] using h1
    have e2 : q.x - a.x = 0 := by simpa [hx, hy] using h2
    have e3 : r.x - a.x = 0 := by simpa [hx, hy] using h3
    have : q.x - p.x = 0 := by linarith
    have h' : r.x - p.x = 0 := by linarith
    rw [this, h']; ring
  · have : (b.x - a.x) * ((q.x - p.x) * (r.y - p.y) - (q.y - p.y) * (r.x - p.x)) = 0 := by
      linear_combination (q.x - p.x) * (h3 - h1) - (r.x - p.x) * (h2 - h1)
    exact (mul_eq_zero.mp this).resolve_left hx

theorem side_at {a b c d x : Vec2 K} {t : K} (hx : x.x = c.x + t * (d.x - c.x)) (hy : x.y = c.y + t * (d.y - c.y)) :
    side a b x = (1 - t) * side a b c + t * side a b d := by
  simp only [side, hx, hy]; ring

/-- A point of an edge all of whose line is on one side of another edge. -/
theorem end_of {a b c d x : Vec2 K} {t : K} (ht0 : 0 ≤ t) (ht1 : t ≤ 1) (hx : x.x = c.x + t * (d.x - c.x))
    (hy : x.y = c.y + t * (d.y - c.y)) (h0 : side a b x = 0)
    (hs : (0 ≤ side a b c ∧ 0 ≤ side a b d) ∨ (side a b c ≤ 0 ∧ side a b d ≤ 0))
    (hne : side a b c ≠ side a b d) : x = c ∨ x = d := by
  rw [side_at hx hy] at h0
  rcases eq_or_lt_of_le ht0 with h | h
  · left; apply Vec2.ext <;> simp [hx, hy, ← h]
  rcases eq_or_lt_of_le ht1 with h' | h'
  · right; apply Vec2.ext <;> simp [hx, hy, h']
  exfalso
  apply hne
  rcases hs with ⟨p, q⟩ | ⟨p, q⟩
  · have := mul_nonneg (by linarith : 0 ≤ 1 - t) p
    have := mul_nonneg ht0 q
    have e1 : (1 - t) * side a b c = 0 := by linarith
    have e2 : t * side a b d = 0 := by linarith
    rw [(mul_eq_zero.mp e1).resolve_left (by linarith), (mul_eq_zero.mp e2).resolve_left h.ne']
  · have := mul_nonneg (by linarith : 0 ≤ 1 - t) (neg_nonneg.mpr p)
    have := mul_nonneg ht0 (neg_nonneg.mpr q)
    have e1 : (1 - t) * side a b c = 0 := by linarith
    have e2 : t * side a b d = 0 := by linarith
    rw [(mul_eq_zero.mp e1).resolve_left (by linarith), (mul_eq_zero.mp e2).resolve_left h.ne']

/-- Two edges of a convex polygon (not flat) have no point in common but a common end. -/
theorem meet_end {vs : List (Vec2 K)} (hc : Convex vs) (hfl : ¬ Flat vs) {e f : Vec2 K × Vec2 K} (he : e ∈ edges vs)
    (hf : f ∈ edges vs) (hne : e ≠ f) (he' : e.1 ≠ e.2) (hf' : f.1 ≠ f.2) {x : Vec2 K} (hxe : OnEdge e x)
    (hxf : OnEdge f x) : (x = e.1 ∨ x = e.2) ∧ (x = f.1 ∨ x = f.2) := by
  obtain ⟨t, ht0, ht1, hx1, hy1⟩ := hxe
  obtain ⟨τ, hτ0, hτ1, hx2, hy2⟩ := hxf
  have ze : side e.1 e.2 x = 0 := by simp only [side, hx1, hy1]; ring
  have zf : side f.1 f.2 x = 0 := by simp only [side, hx2, hy2]; ring
  obtain ⟨e1, e2⟩ := edges_mem he
  obtain ⟨f1, f2⟩ := edges_mem hf
  have os : ∀ g ∈ edges vs, ∀ p ∈ vs, ∀ q ∈ vs, (0 ≤ side g.1 g.2 p ∧ 0 ≤ side g.1 g.2 q) ∨
      (side g.1 g.2 p ≤ 0 ∧ side g.1 g.2 q ≤ 0) := by
    intro g hg p hp q hq
    exact hc.1.imp (fun h => ⟨h g hg p hp, h g hg q hq⟩) fun h => ⟨h g hg p hp, h g hg q hq⟩
  by_cases hp : NotParallel e f
  · refine ⟨end_of ht0 ht1 hx1 hy1 zf (os f hf _ e1 _ e2) ?_, end_of hτ0 hτ1 hx2 hy2 ze (os e he _ f1 _ f2) ?_⟩
    · intro h
      apply hp
      simp only [side] at h
      linear_combination h
    · intro h
      apply hp
      simp only [side] at h
      linear_combination -h
  · unfold NotParallel at hp
    push Not at hp
    set v : Vec2 K := ⟨e.2.x - e.1.x, e.2.y - e.1.y⟩ with hv
    have hv0 : v.x ≠ 0 ∨ v.y ≠ 0 := by
      by_contra hcon
      push Not at hcon
      exact he' (Vec2.ext (by have := hcon.1; simp only [v] at this; linarith) (by have := hcon.2; simp only [v] at this; linarith))
    obtain ⟨k, kx, ky⟩ : ∃ k : K, f.2.x - f.1.x = k * v.x ∧ f.2.y - f.1.y = k * v.y := by
      rcases hv0 with h | h
      · refine ⟨(f.2.x - f.1.x) / v.x, by field_simp, ?_⟩
        have h : e.2.x - e.1.x ≠ 0 := h
        simp only [v]; field_simp; linear_combination hp
      · refine ⟨(f.2.y - f.1.y) / v.y, ?_, by field_simp⟩
        have h : e.2.y - e.1.y ≠ 0 := h
        simp only [v]; field_simp; linear_combination -hp
    have ex : e.2.x - e.1.x = v.x := rfl
    have ey : e.2.y - e.1.y = v.y := rfl
    rw [kx] at hx2
    rw [ky] at hy2
    rw [ex] at hx1
    rw [ey] at hy1
    rcases lt_trichotomy k 0 with hk | hk | hk
    · exfalso
      apply hfl
      refine flat_of_line he' fun w hw => ?_
      have hs : side f.1 f.2 w = k * side e.1 e.2 w := by
        simp only [side, kx, ky, ex, ey]
        have h1 : f.1.x = e.1.x + t * v.x - τ * (k * v.x) := by linarith
        have h2 : f.1.y = e.1.y + t * v.y - τ * (k * v.y) := by linarith
        rw [h1, h2]; ring
      rcases hc.1 with h | h
      · have a1 := h e he w hw
        have a2 := h f hf w hw
        rw [hs] at a2
        nlinarith
      · have a1 := h e he w hw
        have a2 := h f hf w hw
        rw [hs] at a2
        nlinarith
    · exfalso
      apply hf'
      rw [hk] at kx ky
      exact Vec2.ext (by linarith) (by linarith)
    · have := same_dir hc.2 he hf hne hv0 (fun α => ⟨e.1.x + α * v.x, e.1.y + α * v.y⟩) e.1 (fun _ => rfl)
        (by apply Vec2.ext <;> simp) (by apply Vec2.ext <;> simp [v]) (u := t - τ * k) (w := t - τ * k + k) (by linarith)
        (by apply Vec2.ext <;> simp only <;> linarith) (by apply Vec2.ext <;> simp only <;> linarith)
      have m1 : 0 ≤ τ * k := mul_nonneg hτ0 hk.le
      have m2 : 0 ≤ (1 - τ) * k := mul_nonneg (by linarith) hk.le
      rcases this with h | h
      · have t1 : t = 1 := by linarith
        have : τ * k = 0 := by linarith
        have t0 := (mul_eq_zero.mp this).resolve_right hk.ne'
        refine ⟨.inr (Vec2.ext ?_ ?_), .inl (Vec2.ext ?_ ?_)⟩
        · rw [hx1, t1]; simp [v]
        · rw [hy1, t1]; simp [v]
        · rw [hx2, t0]; simp
        · rw [hy2, t0]; simp
      · have t0 : t = 0 := by linarith
        have : (1 - τ) * k = 0 := by linarith
        have t1 := (mul_eq_zero.mp this).resolve_right hk.ne'
        refine ⟨.inl (Vec2.ext ?_ ?_), .inr (Vec2.ext ?_ ?_)⟩
        · rw [hx1, t0]; simp
        · rw [hy1, t0]; simp
        · rw [hx2]; linear_combination -kx - k * v.x * t1
        · rw [hy2]; linear_combination -ky - k * v.y * t1

/-- The edges by index, with the vertices indexed cyclically. -/
theorem edge_get {vs : List (Vec2 K)} {i : Nat} (hi : i < vs.length) :
    (edges vs)[i]? = some (vs[(i + (vs.length - 1)) % vs.length]'(Nat.mod_lt _ (by omega)), vs[i]) := by
  rw [← range_map_edges, List.getElem?_map, List.getElem?_range hi, Option.map_some, Option.some.injEq]
  refine Prod.ext ?_ (nth_ofNat vs i hi)
  simp only
  cases i with
  | zero =>
    have := nth_neg_one vs (by rintro rfl; simp at hi)
    simp only [Nat.cast_zero, zero_sub]
    rw [this, List.getLast_eq_getElem]
    congr 1
    rw [Nat.mod_eq_of_lt (by omega)]; omega
  | succ i =>
    rw [nth_pred vs i hi]
    congr 1
    rw [show i + 1 + (vs.length - 1) = i + vs.length from by omega, Nat.add_mod_right, Nat.mod_eq_of_lt (by omega)]

/-- A convex polygon with distinct vertices, not all on a line, does not touch itself. -/
theorem Convex.not_touching {vs : List (Vec2 K)} (hc : Convex vs) (hfl : ¬ Flat vs) (hn : vs.Nodup) : ¬ SelfTouching vs := by
  rintro ⟨e, f, x, ⟨i, j, hij, hji, he, hf⟩, hxe, hxf⟩
  have hj : j < vs.length := by
    obtain ⟨hj, -⟩ := List.getElem?_eq_some_iff.mp hf
    rwa [edges_length] at hj
  have hi : i < vs.length := by omega
  have me : e ∈ edges vs := List.mem_of_getElem? he
  have mf : f ∈ edges vs := List.mem_of_getElem? hf
  rw [edge_get hi, Option.some.injEq] at he
  rw [edge_get hj, Option.some.injEq] at hf
  have ne : ∀ {a b : Nat} (ha : a < vs.length) (hb : b < vs.length), vs[a] = vs[b] → a = b :=
    fun ha hb h => (List.Nodup.getElem_inj_iff hn).mp h
  have md : ∀ k < vs.length, (k = 0 ∧ (k + (vs.length - 1)) % vs.length = vs.length - 1) ∨
      (k ≠ 0 ∧ (k + (vs.length - 1)) % vs.length = k - 1) := by
    intro k hk
    rcases Nat.eq_zero_or_pos k with rfl | hk0
    · left; exact ⟨rfl, by rw [zero_add, Nat.mod_eq_of_lt (by omega)]⟩
    · right
      refine ⟨by omega, ?_⟩
      rw [show k + (vs.length - 1) = k - 1 + vs.length from by omega, Nat.add_mod_right, Nat.mod_eq_of_lt (by omega)]
  have mi := md i hi
  have mj := md j hj
  have li : (i + (vs.length - 1)) % vs.length < vs.length := Nat.mod_lt _ (by omega)
  have lj : (j + (vs.length - 1)) % vs.length < vs.length := Nat.mod_lt _ (by omega)
  have := meet_end hc hfl me mf (by
      intro h
      rw [← he, ← hf] at h
      have := ne hi hj (congrArg Prod.snd h)
      omega) (by
      rw [← he]
      intro h
      have := ne li hi h
      omega) (by
      rw [← hf]
      intro h
      have := ne lj hj h
      omega) hxe hxf
  rw [← he, ← hf] at this
  obtain ⟨h1 | h1, h2 | h2⟩ := this <;> rw [h1] at h2
  · have := ne li lj h2; omega
  · have := ne li hj h2; omega
  · have := ne hi lj h2; omega
  · have := ne hi hj h2; omega

theorem after_length {eps : K} {vs : List (Vec2 K)} {s0 : Polygon K} (h : Polygon.new vs = .ok s0) (ops : List (PolyOp K)) :
    3 ≤ (s0.after eps ops).verts.length := (isConvex_after (eps := eps) h ops).1

/-- **C46** after every history of reads and edits, if `is_convex` is True, the vertices are distinct and not all on
one line, then `is_simple` is True and indeed no two edges that are not neighbours have a point in common. -/
theorem C46_convex (eps : K) (vs : List (Vec2 K)) (s0 : Polygon K) (h : Polygon.new vs = .ok s0) (ops : List (PolyOp K))
    (hc : (s0.after eps ops).isConvex.1 = true) (hn : (s0.after eps ops).verts.Nodup) (hfl : ¬ Flat (s0.after eps ops).verts) :
    (s0.after eps ops).isSimple.1 = true ∧ ¬ SelfTouching (s0.after eps ops).verts := by
  have hl := after_length (eps := eps) h ops
  refine ⟨?_, Convex.not_touching ?_ hfl hn⟩
  · by_contra hs
    have := (C46_sound eps vs s0 h ops (by simpa using hs)).2
    rw [hc] at this; cases this
  · refine (C45_iff_partial eps vs s0 h ops ?_).mp hc
    simp only
    intro hcon
    rw [List.getElem?_eq_getElem (by omega), List.getElem?_eq_getElem (by omega), Option.some.injEq] at hcon
    have := (List.Nodup.getElem_inj_iff hn).mp hcon
    omega

/-! General position -/

theorem nn_two {vs : List (Vec2 K)} (h4 : 4 ≤ vs.length) {i : Nat} (hi : i < vs.length) {e f : Vec2 K × Vec2 K}
    (he : (edges vs)[i]? = some e) (hf : (edges vs)[(i + 2) % vs.length]? = some f) :
    NotNeighbours vs e f ∨ NotNeighbours vs f e := by
  rcases Nat.lt_or_ge (i + 2) vs.length with h | h
  · rw [Nat.mod_eq_of_lt h] at hf
    exact .inl ⟨i, i + 2, by omega, by omega, he, hf⟩
  · rw [Nat.mod_eq_sub_mod h, Nat.mod_eq_of_lt (by omega)] at hf
    exact .inr ⟨i + 2 - vs.length, i, by omega, by omega, hf, he⟩

theorem onEdge_of_lx {a b w : Vec2 K} (hs : side a b w = 0) (h1 : lx a ≤ lx w) (h2 : lx w ≤ lx b) : OnEdge (a, b) w := by
  rw [← lexLe_iff] at h1 h2
  unfold LexLe at h1 h2
  simp only [side] at hs
  rcases lt_trichotomy a.x b.x with h | h | h
  · have hx : a.x ≤ w.x := by rcases h1 with h | h <;> linarith [h]
    have hx' : w.x ≤ b.x := by rcases h2 with h | h <;> linarith [h]
    have hd : b.x - a.x ≠ 0 := by linarith
    refine ⟨(w.x - a.x) / (b.x - a.x), div_nonneg (by linarith) (by linarith), ?_, ?_, ?_⟩
    · rw [div_le_one (by linarith)]; linarith
    · simp only; field_simp; ring
    · simp only; field_simp; linear_combination hs
  · have hx : w.x = a.x := by
      rcases h1 with h1 | h1 <;> rcases h2 with h2 | h2 <;> linarith [h1, h2]
    have hy : a.y ≤ w.y := by
      rcases h1 with h1 | h1
      · linarith
      · exact h1.2
    have hy' : w.y ≤ b.y := by
      rcases h2 with h2 | h2
      · linarith
      · exact h2.2
    by_cases hd : b.y - a.y = 0
    · exact ⟨0, le_refl _, zero_le_one, by simp [hx], by simp only; linarith⟩
    · have hd' : 0 < b.y - a.y := lt_of_le_of_ne (by linarith) (Ne.symm hd)
      refine ⟨(w.y - a.y) / (b.y - a.y), div_nonneg (by linarith) hd'.le, ?_, ?_, ?_⟩
      · rw [div_le_one hd']; linarith
      · simp only; rw [← h]; linarith
      · simp only; field_simp; ring
  · exfalso
    rcases h1 with h1 | h1 <;> rcases h2 with h2 | h2 <;> linarith [h1, h2]

theorem onEdge_fst (e : Vec2 K × Vec2 K) : OnEdge e e.1 := ⟨0, le_refl _, zero_le_one, by simp, by simp⟩
theorem onEdge_snd (e : Vec2 K × Vec2 K) : OnEdge e e.2 := ⟨1, zero_le_one, le_refl _, by simp, by simp⟩

/-- Four or more vertices on a line: the boundary touches itself. -/
theorem flat_touch {vs : List (Vec2 K)} (h4 : 4 ≤ vs.length) (hfl : Flat vs) : SelfTouching vs := by
  classical
  obtain ⟨A, hA, hmin⟩ := vs.toFinset.exists_min_image lx ⟨vs[0], by simp⟩
  simp only [List.mem_toFinset] at hA hmin
  obtain ⟨i, hi, rfl⟩ := List.getElem_of_mem hA
  have key : ∀ k (hk : k < vs.length) (x : Vec2 K), OnEdge (vs[(k + (vs.length - 1)) % vs.length]'(Nat.mod_lt _ (by omega)), vs[k]) x →
      OnEdge (vs[((k + 2) % vs.length + (vs.length - 1)) % vs.length]'(Nat.mod_lt _ (by omega)),
        vs[(k + 2) % vs.length]'(Nat.mod_lt _ (by omega))) x → SelfTouching vs := by
    intro k hk x h1 h2
    rcases nn_two h4 hk (edge_get hk) (edge_get (Nat.mod_lt _ (by omega))) with h | h
    · exact ⟨_, _, x, h, h1, h2⟩
    · exact ⟨_, _, x, h, h2, h1⟩
  have lp : (i + (vs.length - 1)) % vs.length < vs.length := Nat.mod_lt _ (by omega)
  have ln : (i + 1) % vs.length < vs.length := Nat.mod_lt _ (by omega)
  have next : ∀ k, ((k + 2) % vs.length + (vs.length - 1)) % vs.length = (k + 1) % vs.length := by
    intro k
    rw [Nat.mod_add_mod, show k + 2 + (vs.length - 1) = k + 1 + vs.length from by omega, Nat.add_mod_right]
  rcases le_total (lx (vs[(i + 1) % vs.length])) (lx (vs[(i + (vs.length - 1)) % vs.length])) with h | h
  · refine key i hi (vs[(i + 1) % vs.length]) ?_ ?_
    · exact onEdge_swap (e := (_, _)) (onEdge_of_lx (hfl _ (by simp) _ (by simp) _ (by simp)) (hmin _ (by simp)) h)
    · simp only [next]; exact onEdge_fst _
  · have e1 : ((i + (vs.length - 1)) % vs.length + 2) % vs.length = (i + 1) % vs.length := by
      rw [Nat.mod_add_mod, show i + (vs.length - 1) + 2 = i + 1 + vs.length from by omega, Nat.add_mod_right]
    refine key _ lp (vs[(i + (vs.length - 1)) % vs.length]) (onEdge_snd _) ?_
    have e3 : ((i + 1) % vs.length + (vs.length - 1)) % vs.length = i := by
      rw [Nat.mod_add_mod, show i + 1 + (vs.length - 1) = i + vs.length from by omega, Nat.add_mod_right, Nat.mod_eq_of_lt hi]
    simp only [e1, e3]
    exact onEdge_of_lx (hfl _ (by simp) _ (by simp) _ (by simp)) (hmin _ (by simp)) h

/-- In general position (four or more vertices) the vertices are distinct. -/
theorem nodup_general {vs : List (Vec2 K)} (h4 : 4 ≤ vs.length) (hg : ∀ e f, NotNeighbours vs e f →
      ¬ OnEdge f e.1 ∧ ¬ OnEdge f e.2 ∧ ¬ OnEdge e f.1 ∧ ¬ OnEdge e f.2) : vs.Nodup := by
  have next : ∀ k, ((k + 2) % vs.length + (vs.length - 1)) % vs.length = (k + 1) % vs.length := by
    intro k
    rw [Nat.mod_add_mod, show k + 2 + (vs.length - 1) = k + 1 + vs.length from by omega, Nat.add_mod_right]
  have step : ∀ k (hk : k < vs.length), vs[k] ≠ vs[(k + 1) % vs.length]'(Nat.mod_lt _ (by omega)) := by
    intro k hk h
    have key := nn_two h4 hk (edge_get hk) (edge_get (Nat.mod_lt (k + 2) (by omega)))
    simp only [next] at key
    rcases key with h' | h'
    · apply (hg _ _ h').2.1
      simp only
      rw [h]; exact onEdge_fst _
    · apply (hg _ _ h').2.2.2
      simp only
      rw [h]; exact onEdge_fst _
  rw [List.nodup_iff_injective_get]
  have : ∀ a b (ha : a < vs.length) (hb : b < vs.length), a < b → vs[a] ≠ vs[b] := by
    intro a b ha hb hab h
    rcases Nat.lt_or_ge (a + 1) b with h1 | h1
    · rcases Nat.lt_or_ge (b + 1) (vs.length + a) with h2 | h2
      · have := (hg _ _ ⟨a, b, h1, h2, edge_get ha, edge_get hb⟩).2.1
        apply this
        simp only
        rw [h]; exact onEdge_snd _
      · have ea : a = 0 := by omega
        have eb : b + 1 = vs.length := by omega
        have := step b hb
        simp only [eb, Nat.mod_self] at this
        subst ea
        exact this h.symm
    · have eb : b = a + 1 := by omega
      subst eb
      have := step a ha
      simp only [Nat.mod_eq_of_lt hb] at this
      exact this h
  rintro ⟨a, ha⟩ ⟨b, hb⟩ h
  simp only [List.get_eq_getElem] at h
  rcases lt_trichotomy a b with h' | h' | h'
  · exact absurd h (this a b ha hb h')
  · exact Fin.ext h'
  · exact absurd h.symm (this b a hb ha h')

/-- **C46** when no vertex lies on an edge other than the two it ends (polygons in general position), `is_simple` is
after every history of reads and edits False exactly if two edges that are not neighbours have a point in common.
(Partial: outside general position see `C46_exact_partial`, `C46_convex` and `C46_violated`.) -/
theorem C46_general_partial (eps : K) (vs : List (Vec2 K)) (s0 : Polygon K) (h : Polygon.new vs = .ok s0)
    (ops : List (PolyOp K)) (hg : ∀ e f, NotNeighbours (s0.after eps ops).verts e f →
      ¬ OnEdge f e.1 ∧ ¬ OnEdge f e.2 ∧ ¬ OnEdge e f.1 ∧ ¬ OnEdge e f.2) :
    (s0.after eps ops).isSimple.1 = false ↔ SelfTouching (s0.after eps ops).verts := by
  cases hc : (s0.after eps ops).isConvex.1 with
  | false => exact C46_iff_partial eps vs s0 h ops hc hg
  | true =>
    refine ⟨fun hf => (C46_sound eps vs s0 h ops hf).1, fun ht => ?_⟩
    exfalso
    rcases Nat.lt_or_ge (s0.after eps ops).verts.length 4 with h4 | h4
    · obtain ⟨e, f, x, ⟨i, j, hij, hji, he, hf⟩, -, -⟩ := ht
      have : j < (s0.after eps ops).verts.length := by
        obtain ⟨hj, -⟩ := List.getElem?_eq_some_iff.mp hf
        rwa [edges_length] at hj
      omega
    · have hn := nodup_general h4 hg
      have hfl : ¬ Flat (s0.after eps ops).verts := by
        intro hfl
        obtain ⟨e, f, x, hn, he, hf⟩ := flat_touch h4 hfl
        obtain ⟨g1, g2, g3, g4⟩ := hg e f hn
        by_cases hp : NotParallel e f
        · obtain ⟨i, j, -, -, he', hf'⟩ := hn
          obtain ⟨e1, e2⟩ := edges_mem (List.mem_of_getElem? he')
          obtain ⟨f1, f2⟩ := edges_mem (List.mem_of_getElem? hf')
          apply hp
          have a1 := hfl _ e1 _ e2 _ f1
          have a2 := hfl _ e1 _ e2 _ f2
          simp only [side] at a1 a2
          linear_combination a2 - a1
        · rcases parallel_touch hp he hf with h | h | h
          · exact g1 h
          · exact g3 h
          · exact g4 h
      exact (C46_convex eps vs s0 h ops hc hn hfl).2 ht

private instance : DecidableEq (Vec2 ℚ) := fun a b => decidable_of_iff (a.x = b.x ∧ a.y = b.y) Vec2.ext_iff.symm

/-- A pentagon satisfies the hypotheses of `C46_convex`. -/
example : ∃ s : Polygon ℚ, Polygon.new [⟨0, 0⟩, ⟨3, 0⟩, ⟨4, 2⟩, ⟨2, 4⟩, (⟨-1, 2⟩ : Vec2 ℚ)] = .ok s ∧ s.isConvex.1 = true ∧
    s.verts.Nodup ∧ ¬ Flat s.verts :=
  ⟨_, rfl, by decide +kernel, by decide +kernel, fun h => by
    have := h ⟨0, 0⟩ (by decide +kernel) ⟨3, 0⟩ (by decide +kernel) ⟨4, 2⟩ (by decide +kernel)
    revert this; simp [side]⟩

end Planar
