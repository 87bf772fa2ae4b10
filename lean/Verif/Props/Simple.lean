import Verif.Lemmas.Sweep
import Verif.Props.Convex
/- C46: `is_simple`. -/
set_option linter.unusedSectionVars false
namespace Planar
open Spec Polygon
variable {K : Type} [Field K] [LinearOrder K] [IsStrictOrderedRing K]

/-! ### edges as unordered pairs -/

theorem onEdge_swap {e : Vec2 K × Vec2 K} {x : Vec2 K} (h : OnEdge e x) : OnEdge e.swap x := by
  obtain ⟨t, h0, h1, hx, hy⟩ := h
  refine ⟨1 - t, by linarith, by linarith, ?_, ?_⟩
  · simp only [Prod.fst_swap, Prod.snd_swap]; rw [hx]; ring
  · simp only [Prod.fst_swap, Prod.snd_swap]; rw [hy]; ring

/-- Two edges that cross where the sweep can see it. -/
def Seen (e f : Vec2 K × Vec2 K) : Prop := NotParallel e f ∧ ∃ x, OnEdge e x ∧ OnEdge f x ∧
  ¬ (RightEnd e x ∧ LeftEnd f x) ∧ ¬ (RightEnd f x ∧ LeftEnd e x)

theorem rightEnd_swap {e : Vec2 K × Vec2 K} {x : Vec2 K} : RightEnd e.swap x ↔ RightEnd e x := by
  simp only [RightEnd, Prod.fst_swap, Prod.snd_swap]
  constructor <;> rintro ⟨h1, h2, h3⟩ <;> exact ⟨h1.symm, h3, h2⟩

theorem leftEnd_swap {e : Vec2 K × Vec2 K} {x : Vec2 K} : LeftEnd e.swap x ↔ LeftEnd e x := by
  simp only [LeftEnd, Prod.fst_swap, Prod.snd_swap]
  constructor <;> rintro ⟨h1, h2, h3⟩ <;> exact ⟨h1.symm, h3, h2⟩

theorem np_symm {e f : Vec2 K × Vec2 K} (h : NotParallel e f) : NotParallel f e := by
  intro h'; apply h; linear_combination -h'

theorem np_swap {e f : Vec2 K × Vec2 K} (h : NotParallel e f) : NotParallel e.swap f := by
  intro h'; apply h; simp only [Prod.fst_swap, Prod.snd_swap] at h'; linear_combination -h'

theorem Seen.symm {e f : Vec2 K × Vec2 K} (h : Seen e f) : Seen f e := by
  obtain ⟨h1, x, h2, h3, h4, h5⟩ := h
  exact ⟨np_symm h1, x, h3, h2, h5, h4⟩

theorem Seen.swap {e f : Vec2 K × Vec2 K} (h : Seen e f) : Seen e.swap f := by
  obtain ⟨h1, x, h2, h3, h4, h5⟩ := h
  refine ⟨np_swap h1, x, onEdge_swap h2, h3, ?_, ?_⟩
  · rw [rightEnd_swap]; exact h4
  · rw [leftEnd_swap]; exact h5

/-! ### the order of points -/

/-- A point as a pair in lexicographic order. -/
def lx (v : Vec2 K) : K ×ₗ K := toLex (v.x, v.y)

theorem lx_inj {a b : Vec2 K} (h : lx a = lx b) : a = b := by
  simp only [lx, EmbeddingLike.apply_eq_iff_eq, Prod.mk.injEq] at h
  exact Vec2.ext h.1 h.2

theorem lexLe_iff {a b : Vec2 K} : LexLe a b ↔ lx a ≤ lx b := by
  rw [lx, lx, Prod.Lex.toLex_le_toLex]; rfl

theorem key_le {p q : SweepPt K} (h : key p ≤ key q) : lx p.start ≤ lx q.start ∧
    (p.start = q.start → lx p.stop ≤ lx q.stop) := by
  simp only [key, Prod.Lex.toLex_le_toLex] at h
  simp only [lx, Prod.Lex.toLex_le_toLex]
  rcases h with h | ⟨h, h2⟩
  · exact ⟨Or.inl h, fun e => absurd h (by rw [e]; exact lt_irrefl _)⟩
  · rcases h2 with h2 | ⟨h2, h3⟩
    · exact ⟨Or.inr ⟨h, h2.le⟩, fun e => absurd h2 (by rw [e]; exact lt_irrefl _)⟩
    · refine ⟨Or.inr ⟨h, h2.le⟩, fun _ => ?_⟩
      rcases h3 with h3 | ⟨h3, h4⟩
      · exact Or.inl h3
      · rcases h4 with h4 | ⟨h4, -⟩
        · exact Or.inr ⟨h3, h4.le⟩
        · exact Or.inr ⟨h3, h4.le⟩

theorem key_le_of {p q : SweepPt K} (h : lx p.start < lx q.start) : key p ≤ key q := by
  simp only [lx, Prod.Lex.toLex_lt_toLex] at h
  simp only [key, Prod.Lex.toLex_le_toLex]
  rcases h with h | ⟨h, h2⟩
  · exact Or.inl h
  · exact Or.inr ⟨h, Or.inl h2⟩

/-- A point of an edge is between its ends in the order of points. -/
theorem onEdge_lx {a b x : Vec2 K} (hab : lx a ≤ lx b) (h : OnEdge (a, b) x) : lx a ≤ lx x ∧ lx x ≤ lx b := by
  obtain ⟨t, h0, h1, hx, hy⟩ := h
  simp only at hx hy
  simp only [lx, Prod.Lex.toLex_le_toLex] at hab ⊢
  rcases hab with hab | ⟨e, hab⟩
  · have hd : 0 < b.x - a.x := by linarith
    constructor
    · rcases h0.eq_or_lt with h | h
      · right; subst h; exact ⟨by linarith, by linarith⟩
      · left; have := mul_pos h hd; linarith
    · rcases h1.eq_or_lt with h | h
      · right; subst h; exact ⟨by linarith, by linarith⟩
      · left; have := mul_lt_mul_of_pos_right h hd; linarith
  · have hd : 0 ≤ b.y - a.y := by linarith
    have ex : x.x = a.x := by rw [hx, e]; ring
    constructor
    · right; exact ⟨ex.symm, by have := mul_nonneg h0 hd; linarith⟩
    · right; exact ⟨ex.trans e, by have := mul_le_mul_of_nonneg_right h1 hd; linarith⟩

theorem edge_of_event {vs : List (Vec2 K)} {p : SweepPt K} (h : p ∈ sweepPoints vs) :
    ∃ E, (edges vs)[p.index]? = some E ∧ (E = (p.start, p.stop) ∨ E = (p.start, p.stop).swap) := by
  rw [mem_sweepPoints] at h
  refine ⟨(nth vs ((p.index : Int) - 1), nth vs p.index), ?_, ?_⟩
  · rw [← range_map_edges]; simp [h.1]
  · rcases h.2 with e | e
    · left; generalize p.index = i at e; rw [e]; rfl
    · right; generalize p.index = i at e; rw [e]; rfl

/-- The event that opens an edge. -/
theorem event_of_edge {vs : List (Vec2 K)} {i : Nat} {E : Vec2 K × Vec2 K} (h : (edges vs)[i]? = some E) :
    ∃ p ∈ sweepPoints vs, p.index = i ∧ key p ≤ key (rev p) ∧ (E = (p.start, p.stop) ∨ E = (p.start, p.stop).swap) := by
  have hi : i < vs.length := by
    rw [← edges_length]; exact (List.getElem?_eq_some_iff.mp h).1
  have m1 : ev1 vs i ∈ sweepPoints vs := mem_sweepPoints.mpr ⟨hi, Or.inl rfl⟩
  have m2 : ev2 vs i ∈ sweepPoints vs := mem_sweepPoints.mpr ⟨hi, Or.inr rfl⟩
  have hE : ∀ p ∈ sweepPoints vs, p.index = i → E = (p.start, p.stop) ∨ E = (p.start, p.stop).swap := by
    intro p hp hpi
    obtain ⟨F, h1, h2⟩ := edge_of_event hp
    rw [hpi, h] at h1
    cases h1; exact h2
  rcases le_total (key (ev1 vs i)) (key (ev2 vs i)) with hk | hk
  · exact ⟨_, m1, rfl, hk, hE _ m1 rfl⟩
  · exact ⟨_, m2, rfl, hk, hE _ m2 rfl⟩

theorem seen_congr {E F e f : Vec2 K × Vec2 K} (hE : E = e ∨ E = e.swap) (hF : F = f ∨ F = f.swap) :
    Seen E F ↔ Seen e f := by
  have key : ∀ {e f : Vec2 K × Vec2 K}, Seen e.swap f ↔ Seen e f := by
    intro e f
    exact ⟨fun h => by have := h.swap; rwa [Prod.swap_swap] at this, Seen.swap⟩
  have sym : ∀ {e f : Vec2 K × Vec2 K}, Seen e f ↔ Seen f e := ⟨Seen.symm, Seen.symm⟩
  have h1 : Seen E F ↔ Seen e F := by
    rcases hE with rfl | rfl
    · rfl
    · exact key
  rw [h1, sym, sym (e := e)]
  rcases hF with rfl | rfl
  · rfl
  · exact key

/-- What the sweep finds. -/
theorem checkSimple_seen (vs : List (Vec2 K)) : checkSimple vs = false ↔
    ∃ e f, NotNeighbours vs e f ∧ Seen e f := by
  rw [checkSimple_iff]
  constructor
  · rintro ⟨o, mo, p, mp, hgap, k1, k2, k3, hX⟩
    rw [segmentsIntersect_iff] at hX
    obtain ⟨hNP, x, hp, ho⟩ := hX
    have hne : p.start ≠ p.stop := by
      intro e; apply hNP; simp only [e, sub_self, zero_mul]
    obtain ⟨k1', -⟩ := key_le k1
    obtain ⟨k2', k2''⟩ := key_le k2
    obtain ⟨k3', -⟩ := key_le k3
    simp only [rev] at k2' k2'' k3'
    have hs : Seen (o.start, o.stop) (p.start, p.stop) := by
      refine ⟨np_symm hNP, x, ho, hp, ?_, ?_⟩
      · rintro ⟨⟨a1, a2, a3⟩, b1, b2, b3⟩
        rw [lexLe_iff] at a2 a3 b2 b3
        simp only at a1 a2 a3 b1 b2 b3
        have e1 : x = p.start := by
          rcases b1 with h | h
          · exact h
          · exact lx_inj (le_antisymm b2 (by rw [h]; exact k3'))
        have e2 : x = o.stop := lx_inj (le_antisymm (by
          rcases a1 with h | h
          · rw [h]; exact k1'.trans k2'
          · rw [h]) a3)
        have e3 := k2'' (e1 ▸ e2)
        exact hne (lx_inj (le_antisymm k3' (e3.trans k1')))
      · rintro ⟨⟨a1, a2, a3⟩, b1, b2, b3⟩
        rw [lexLe_iff] at a2 a3 b2 b3
        simp only at a1 a2 a3 b1 b2 b3
        have h1 : lx p.stop ≤ lx p.start := a3.trans (b2.trans k1')
        exact hne (lx_inj (le_antisymm k3' h1))
    obtain ⟨E, hE, hE'⟩ := edge_of_event mo
    obtain ⟨F, hF, hF'⟩ := edge_of_event mp
    have hS := (seen_congr hE' hF').mpr hs
    have hob := (mem_sweepPoints.mp mo).1
    have hpb := (mem_sweepPoints.mp mp).1
    simp only [GapOk] at hgap
    rcases Nat.lt_or_ge o.index p.index with hlt | hge
    · exact ⟨E, F, ⟨o.index, p.index, by omega, by omega, hE, hF⟩, hS⟩
    · exact ⟨F, E, ⟨p.index, o.index, by omega, by omega, hF, hE⟩, hS.symm⟩
  · rintro ⟨E, F, ⟨i, j, hij, hji, hE, hF⟩, hS⟩
    have hj : j < vs.length := by
      rw [← edges_length]; exact (List.getElem?_eq_some_iff.mp hF).1
    obtain ⟨o, mo, io, ko, hE'⟩ := event_of_edge hE
    obtain ⟨p, mp, ip, kp, hF'⟩ := event_of_edge hF
    have hs := (seen_congr hE' hF').mp hS
    have main : ∀ o p : SweepPt K, key o ≤ key (rev o) → key p ≤ key (rev p) → key o ≤ key p →
        Seen (o.start, o.stop) (p.start, p.stop) →
        key p ≤ key (rev o) ∧ segmentsIntersect p.start p.stop o.start o.stop = true := by
      intro o p ko kp k ⟨hNP, x, ho, hp, hn, _⟩
      have k1 := (key_le ko).1
      have k2 := (key_le kp).1
      simp only [rev] at k1 k2
      refine ⟨key_le_of ?_, (segmentsIntersect_iff _ _ _ _).mpr ⟨np_symm hNP, x, hp, ho⟩⟩
      have l1 := onEdge_lx k1 ho
      have l2 := onEdge_lx k2 hp
      rcases (l2.1.trans l1.2).lt_or_eq with h | h
      · exact h
      · exfalso
        apply hn
        have e1 : x = o.stop := lx_inj (le_antisymm l1.2 (by rw [← h]; exact l2.1))
        have e2 : x = p.start := by rw [e1]; exact (lx_inj h).symm
        refine ⟨⟨Or.inr e1, ?_, ?_⟩, Or.inl e2, ?_, ?_⟩ <;> rw [lexLe_iff]
        · exact l1.1
        · rw [e1]
        · rw [e2]
        · exact l2.2
    rcases le_total (key o) (key p) with hk | hk
    · obtain ⟨h1, h2⟩ := main o p ko kp hk hs
      exact ⟨o, mo, p, mp, by simp only [GapOk]; omega, hk, h1, kp, h2⟩
    · obtain ⟨h1, h2⟩ := main p o kp ko hk hs.symm
      exact ⟨p, mp, o, mo, by simp only [GapOk]; omega, hk, h1, ko, h2⟩

/-- If two parallel edges have a point in common, an end of one of them is on the other. -/
theorem parallel_touch {e f : Vec2 K × Vec2 K} {x : Vec2 K} (hp : ¬ NotParallel e f) (he : OnEdge e x) (hf : OnEdge f x) :
    OnEdge f e.1 ∨ OnEdge e f.1 ∨ OnEdge e f.2 := by
  obtain ⟨a, b⟩ := e
  obtain ⟨c, d⟩ := f
  by_cases hab : a = b
  · left
    have : x = a := by
      obtain ⟨t, -, -, hx, hy⟩ := he
      subst hab
      ext
      · rw [hx]; simp
      · rw [hy]; simp
    rw [← this]; exact hf
  obtain ⟨t, t0, t1, tx, ty⟩ := he
  obtain ⟨u, u0, u1, ux, uy⟩ := hf
  simp only [NotParallel, not_not] at hp
  simp only at tx ty ux uy
  have hk : ∃ k : K, d.x - c.x = k * (b.x - a.x) ∧ d.y - c.y = k * (b.y - a.y) := by
    by_cases hx : b.x - a.x = 0
    · have hy : b.y - a.y ≠ 0 := by
        intro hy; apply hab; ext
        · linear_combination -hx
        · linear_combination -hy
      refine ⟨(d.y - c.y) / (b.y - a.y), ?_, by field_simp⟩
      rw [hx] at hp ⊢
      have : (b.y - a.y) * (d.x - c.x) = 0 := by linear_combination -hp
      rcases mul_eq_zero.mp this with h | h
      · exact absurd h hy
      · rw [h]; ring
    · refine ⟨(d.x - c.x) / (b.x - a.x), by field_simp, ?_⟩
      field_simp; linear_combination hp
  obtain ⟨k, kx, ky⟩ := hk
  have cx : c.x = a.x + (t - u * k) * (b.x - a.x) := by rw [kx] at ux; linear_combination tx - ux
  have cy : c.y = a.y + (t - u * k) * (b.y - a.y) := by rw [ky] at uy; linear_combination ty - uy
  have dx : d.x = a.x + (t - u * k + k) * (b.x - a.x) := by linear_combination cx + kx
  have dy : d.y = a.y + (t - u * k + k) * (b.y - a.y) := by linear_combination cy + ky
  by_cases g0 : 0 ≤ t - u * k
  · by_cases g1 : t - u * k ≤ 1
    · right; left; exact ⟨_, g0, g1, cx, cy⟩
    · -- c beyond b, so k < 0
      push Not at g1
      have huk : u * k < 0 := by linarith
      have hk : k < 0 := by
        by_contra h; push Not at h; have := mul_nonneg u0 h; linarith
      by_cases g2 : 0 ≤ t - u * k + k
      · right; right
        refine ⟨_, g2, ?_, dx, dy⟩
        have : (1 - u) * k ≤ 0 := by nlinarith
        linarith
      · left
        push Not at g2
        refine ⟨(t - u * k) / (-k), div_nonneg g0 (by linarith), ?_, ?_, ?_⟩
        · rw [div_le_one (by linarith)]; linarith
        · simp only; rw [kx]; have := hk.ne; field_simp; linear_combination -cx
        · simp only; rw [ky]; have := hk.ne; field_simp; linear_combination -cy
  · push Not at g0
    have huk : 0 < u * k := by linarith
    have hk : 0 < k := by
      by_contra h; push Not at h; have := mul_nonneg u0 (neg_nonneg.mpr h); linarith
    by_cases g2 : t - u * k + k ≤ 1
    · right; right
      refine ⟨_, ?_, g2, dx, dy⟩
      have : 0 ≤ (1 - u) * k := mul_nonneg (by linarith) hk.le
      linarith
    · left
      push Not at g2
      refine ⟨(t - u * k) / (-k), div_nonneg_of_nonpos g0.le (by linarith), ?_, ?_, ?_⟩
      · rw [div_le_one_of_neg (by linarith)]; linarith
      · simp only; rw [kx]; have := hk.ne'; field_simp; linear_combination -cx
      · simp only; rw [ky]; have := hk.ne'; field_simp; linear_combination -cy

theorem isSimple_after {eps : K} {vs : List (Vec2 K)} {s0 : Polygon K} (h : Polygon.new vs = .ok s0) (ops : List (PolyOp K)) :
    (s0.after eps ops).isSimple.1 = simpleVal (s0.after eps ops).verts ∧
    (s0.after eps ops).isConvex.1 = convexVal (s0.after eps ops).verts := by
  have hi : Inv eps s0 := by
    have hl : 3 ≤ vs.length := by
      by_contra hc
      rw [(C43_new vs none none).1 (by omega)] at h
      cases h
    rw [C44_fresh_new eps vs hl] at h
    cases h
    exact inv_fromPoints eps vs
  have := (inv_after hi ops).1
  exact ⟨(inv_isSimple this).1, (inv_isConvex this).1⟩

/-- **C46** (one direction, without restriction) after every history of reads and edits, if `is_simple` is False then
two edges that are not neighbours have a point in common, and `is_convex` is False. -/
theorem C46_sound (eps : K) (vs : List (Vec2 K)) (s0 : Polygon K) (h : Polygon.new vs = .ok s0) (ops : List (PolyOp K))
    (hf : (s0.after eps ops).isSimple.1 = false) :
    SelfTouching (s0.after eps ops).verts ∧ (s0.after eps ops).isConvex.1 = false := by
  obtain ⟨h1, h2⟩ := isSimple_after (eps := eps) h ops
  rw [h1, simpleVal] at hf
  rw [h2, convexVal]
  split at hf
  · rename_i hl
    rw [Bool.or_eq_false_iff] at hf
    obtain ⟨e, f, hn, -, x, hx, hy, -⟩ := (checkSimple_seen _).mp hf.2
    refine ⟨⟨e, f, x, hn, hx, hy⟩, ?_⟩
    rw [if_pos hl]; exact hf.1
  · cases hf

/-- **C46** exactly what `is_simple` finds in a polygon that is not convex: two edges that are not neighbours and not
parallel with a common point, other than the right end of one being the left end of the other. (Partial: overlapping
parallel edges, edges of length zero and edges touching right end to left end are not found, `C46_violated`.) -/
theorem C46_exact_partial (eps : K) (vs : List (Vec2 K)) (s0 : Polygon K) (h : Polygon.new vs = .ok s0)
    (ops : List (PolyOp K)) (hc : (s0.after eps ops).isConvex.1 = false) :
    (s0.after eps ops).isSimple.1 = false ↔
      ∃ e f x, NotNeighbours (s0.after eps ops).verts e f ∧ NotParallel e f ∧ OnEdge e x ∧ OnEdge f x ∧
        ¬ (RightEnd e x ∧ LeftEnd f x) ∧ ¬ (RightEnd f x ∧ LeftEnd e x) := by
  obtain ⟨h1, h2⟩ := isSimple_after (eps := eps) h ops
  rw [h2, convexVal] at hc
  rw [h1, simpleVal]
  split at hc
  · rename_i hl
    rw [if_pos hl, hc, Bool.false_or, checkSimple_seen]
    constructor
    · rintro ⟨e, f, hn, hp, x, a, b, c, d⟩; exact ⟨e, f, x, hn, hp, a, b, c, d⟩
    · rintro ⟨e, f, x, hn, hp, a, b, c, d⟩; exact ⟨e, f, hn, hp, x, a, b, c, d⟩
  · cases hc

/-- **C46** when no vertex lies on an edge other than the two it ends (polygons in general position), `is_simple` of a
polygon that is not convex is False exactly if two edges that are not neighbours have a point in common. -/
theorem C46_iff_partial (eps : K) (vs : List (Vec2 K)) (s0 : Polygon K) (h : Polygon.new vs = .ok s0)
    (ops : List (PolyOp K)) (hc : (s0.after eps ops).isConvex.1 = false)
    (hg : ∀ e f, NotNeighbours (s0.after eps ops).verts e f →
      ¬ OnEdge f e.1 ∧ ¬ OnEdge f e.2 ∧ ¬ OnEdge e f.1 ∧ ¬ OnEdge e f.2) :
    (s0.after eps ops).isSimple.1 = false ↔ SelfTouching (s0.after eps ops).verts := by
  refine ⟨fun hf => (C46_sound eps vs s0 h ops hf).1, ?_⟩
  rintro ⟨e, f, x, hn, he, hf⟩
  rw [C46_exact_partial eps vs s0 h ops hc]
  obtain ⟨g1, g2, g3, g4⟩ := hg e f hn
  refine ⟨e, f, x, hn, ?_, he, hf, ?_, ?_⟩
  · by_contra hp
    rcases parallel_touch hp he hf with h | h | h
    · exact g1 h
    · exact g3 h
    · exact g4 h
  · rintro ⟨⟨h | h, -⟩, -⟩
    · exact g1 (h ▸ hf)
    · exact g2 (h ▸ hf)
  · rintro ⟨-, h | h, -⟩
    · exact g1 (h ▸ hf)
    · exact g2 (h ▸ hf)

private instance : DecidableEq (Vec2 ℚ) := fun a b => decidable_of_iff (a.x = b.x ∧ a.y = b.y) Vec2.ext_iff.symm

/-- A bow tie satisfies the hypotheses of `C46_iff_partial` (with `is_simple` False), an arrow head too (True). -/
example : ∃ s : Polygon ℚ, Polygon.new [⟨0, 0⟩, ⟨2, 2⟩, ⟨2, 0⟩, (⟨0, 2⟩ : Vec2 ℚ)] = .ok s ∧ s.isConvex.1 = false ∧
    s.isSimple.1 = false := ⟨_, rfl, by decide +kernel, by decide +kernel⟩
example : ∃ s : Polygon ℚ, Polygon.new [⟨0, 0⟩, ⟨2, 2⟩, ⟨0, 1⟩, (⟨-2, 2⟩ : Vec2 ℚ)] = .ok s ∧ s.isConvex.1 = false ∧
    s.isSimple.1 = true := ⟨_, rfl, by decide +kernel, by decide +kernel⟩

/-- **C46** is violated: polygons that touch themselves and yet are reported simple. First two overlapping parallel
edges, then an edge whose right end is the left end of another, then a polygon reported convex with a doubled vertex. -/
theorem C46_violated :
    (∃ s : Polygon ℚ, Polygon.new [⟨0, 0⟩, ⟨4, 0⟩, ⟨2, 0⟩, ⟨6, 0⟩, ⟨6, 3⟩, (⟨0, 3⟩ : Vec2 ℚ)] = .ok s ∧
      s.isConvex.1 = false ∧ s.isSimple.1 = true ∧ SelfTouching s.verts) ∧
    (∃ s : Polygon ℚ, Polygon.new [⟨0, 0⟩, ⟨2, 2⟩, ⟨0, 4⟩, ⟨4, 4⟩, ⟨2, 2⟩, (⟨4, 0⟩ : Vec2 ℚ)] = .ok s ∧
      s.isConvex.1 = false ∧ s.isSimple.1 = true ∧ SelfTouching s.verts) ∧
    (∃ s : Polygon ℚ, Polygon.new [⟨0, 0⟩, ⟨2, 0⟩, ⟨2, 0⟩, ⟨2, 2⟩, (⟨0, 2⟩ : Vec2 ℚ)] = .ok s ∧
      s.isConvex.1 = true ∧ s.isSimple.1 = true ∧ SelfTouching s.verts) := by
  refine ⟨⟨_, rfl, by decide +kernel, by decide +kernel, ?_⟩, ⟨_, rfl, by decide +kernel, by decide +kernel, ?_⟩,
    ⟨_, rfl, by decide +kernel, by decide +kernel, ?_⟩⟩
  · refine ⟨(⟨0, 0⟩, ⟨4, 0⟩), (⟨2, 0⟩, ⟨6, 0⟩), ⟨3, 0⟩, ⟨1, 3, by decide, by decide, by decide +kernel, by decide +kernel⟩,
      ⟨3/4, by norm_num⟩, ⟨1/4, by norm_num⟩⟩
  · refine ⟨(⟨0, 0⟩, ⟨2, 2⟩), (⟨4, 4⟩, ⟨2, 2⟩), ⟨2, 2⟩, ⟨1, 4, by decide, by decide, by decide +kernel, by decide +kernel⟩,
      ⟨1, by norm_num⟩, ⟨1, by norm_num⟩⟩
  · refine ⟨(⟨0, 0⟩, ⟨2, 0⟩), (⟨2, 0⟩, ⟨2, 2⟩), ⟨2, 0⟩, ⟨1, 3, by decide, by decide, by decide +kernel, by decide +kernel⟩,
      ⟨1, by norm_num⟩, ⟨0, by norm_num⟩⟩

end Planar
