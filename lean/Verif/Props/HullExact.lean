import Verif.Props.Hull
import Verif.Lemmas.HullConvex
/- C57: the hull is convex whatever the points, and exactly when it loses one. -/
set_option linter.unusedSectionVars false
namespace Planar
open Spec Polygon Hull
variable {K : Type} [Field K] [LinearOrder K] [IsStrictOrderedRing K]

namespace Hull

/-- Everything about the two chains of the hull of points that are not on a line. -/
theorem hull_chains {order : List (Vec2 K) → List (Vec2 K)} (hord : ∀ l, (order l).Perm l) {points : List (Vec2 K)}
    (h : ¬ Flat points) {s : Polygon K} (hs : convexHull order points = .ok s) :
    ∃ L R up lo t1 t2, s.verts = (L :: t1) ++ (R :: t2) ∧ L.x < R.x ∧ (∀ p ∈ points, L.x ≤ p.x ∧ p.x ≤ R.x) ∧
      (∀ v, v ∈ up ↔ v ∈ points ∧ 0 < side L R v ∧ v ≠ L ∧ v ≠ R) ∧
      (∀ v, v ∈ lo ↔ v ∈ points ∧ side L R v ≤ 0 ∧ v ≠ L ∧ v ≠ R) ∧ Ctx points up L R ∧ Ctx points lo R L ∧
      (∀ ps a b, SortCall up L R ps a b ∨ SortCall lo R L ps a b ↔ Scan order points ps a b) ∧
      startSide up L R = .ok (L :: t1) ∧ startSide lo R L = .ok (R :: t2) ∧
      SubChain points up L R (L :: t1) ∧ SubChain points lo R L (R :: t2) := by
  have hne : points ≠ [] := by rintro rfl; apply h; intro a ha; simp at ha
  obtain ⟨L, R, up, lo, hL, hR, hx, hup, hlo, -, -, hsc, heq⟩ := quick_start hord hne
  have hlt := spread_of_not_flat hx h
  obtain ⟨c1, c2⟩ := ctx_start hL hR hx hlt hup hlo
  have part : ∀ (Q : List (Vec2 K)) (p0 p1 : Vec2 K), Ctx points Q p0 p1 →
      ∃ h, startSide Q p0 p1 = .ok h ∧ SubChain points Q p0 p1 h := by
    intro Q p0 p1 hc
    rw [startSide]
    split
    · rename_i he
      have he := List.isEmpty_iff.mp he
      subst he
      have hall : ∀ s ∈ points, side p0 p1 s ≤ 0 := by
        intro s hs
        by_contra hcon
        push Not at hcon
        have := hc.all s hs hcon
        simp at this
      refine ⟨_, rfl, [], rfl, by simp, ?_, Or.inr hall⟩
      intro e he
      simp only [List.nil_append, edgesFrom_cons, edgesFrom_nil, List.mem_singleton] at he
      subst he
      refine ⟨?_, fun s _ h => h⟩
      intro v hv
      simp only [List.nil_append, List.mem_cons, List.not_mem_nil, or_false] at hv
      rcases hv with rfl | rfl
      · exact (side_start _ _).le
      · exact (side_end _ _).le
    · rename_i he
      exact partition_convex Q.length Q p0 p1 le_rfl (by rintro rfl; simp at he) hc
  obtain ⟨h1, e1, s1⟩ := part up L R c1
  obtain ⟨h2, e2, s2⟩ := part lo R L c2
  obtain ⟨t1, rfl, g1⟩ := s1
  obtain ⟨t2, rfl, g2⟩ := s2
  refine ⟨L, R, up, lo, t1, t2, ?_, hlt, hx, hup, hlo, c1, c2, hsc, e1, e2, ⟨t1, rfl, g1⟩, ⟨t2, rfl, g2⟩⟩
  have := convexHull_inv hs
  rw [heq, e1, e2] at this
  simp only [Except.bind, Except.ok.injEq] at this
  exact this.symm

/-- The chains of the hull, seen from its own vertices. -/
theorem chain_own {S pts t V : List (Vec2 K)} {p0 p1 : Vec2 K} (hc : Ctx S pts p0 p1) (h : SubChain S pts p0 p1 (p0 :: t))
    (hV : ∀ v ∈ V, v ∈ S) (h0 : p0 ∈ V) (h1 : p1 ∈ V) (ht : ∀ v ∈ t, v ∈ V)
    (hother : ∀ v ∈ V, v = p0 ∨ v = p1 ∨ v ∈ t ∨ side p0 p1 v ≤ 0) :
    Ctx V t p0 p1 ∧ SubHull V t p0 p1 (p0 :: t) := by
  obtain ⟨t', ht', hsub, hedge, hstr⟩ := h
  obtain rfl : t = t' := by simpa using ht'
  constructor
  · refine ⟨h0, h1, ht, fun v hv => hc.pos v (hsub v hv), fun v hv => hc.on v (hsub v hv), ?_, ?_, ?_⟩
    · intro s hs hpos
      rcases hother s hs with rfl | rfl | h | h
      · rw [side_start] at hpos; exact absurd hpos (lt_irrefl _)
      · rw [side_end] at hpos; exact absurd hpos (lt_irrefl _)
      · exact h
      · exact absurd hpos (not_lt.mpr h)
    · intro hne
      obtain ⟨v, hv⟩ := List.exists_mem_of_ne_nil _ hne
      obtain ⟨a, b, g1, g2⟩ := hc.left (List.ne_nil_of_mem (hsub v hv))
      exact ⟨a, b, fun s hs => g1 s (hV s hs), g2⟩
    · intro hne
      obtain ⟨v, hv⟩ := List.exists_mem_of_ne_nil _ hne
      obtain ⟨a, b, g1, g2⟩ := hc.right (List.ne_nil_of_mem (hsub v hv))
      exact ⟨a, b, fun s hs => g1 s (hV s hs), g2⟩
  · refine ⟨t, rfl, ?_, fun v hv => hv, fun p hp => .vertex _ (by simp [hp]), ?_⟩
    · intro e he s hs
      rcases hother s hs with rfl | rfl | h | h
      · exact (hedge e he).1 s (by simp)
      · exact (hedge e he).1 s (by simp)
      · exact (hedge e he).1 s (by simp [h])
      · exact (hedge e he).2 s (hV s hs) h
    · rcases hstr with h | h
      · exact Or.inl h
      · exact Or.inr fun s hs => h s (hV s hs)

end Hull

/-- **C57** the hull is a convex polygon that goes once around its vertices clockwise, whatever the points (not on a line),
even when a sorted scan loses some of them: the polygon is what it is declared to be. -/
theorem C57_convex (order : List (Vec2 K) → List (Vec2 K)) (hord : ∀ l, (order l).Perm l) (points : List (Vec2 K))
    (h : ¬ Flat points) (s : Polygon K) (hs : convexHull order points = .ok s) :
    (∀ e ∈ edges s.verts, ∀ v ∈ s.verts, side e.1 e.2 v ≤ 0) ∧ Convex s.verts ∧ ¬ Flat s.verts := by
  obtain ⟨L, R, up, lo, t1, t2, hv, hlt, hx, hup, hlo, c1, c2, hsc, e1, e2, s1, s2⟩ := hull_chains hord h hs
  have hVS := C57_vertices order hord points s hs
  have flip : ∀ v, side R L v = -side L R v := by intro v; simp only [side]; ring
  have m1 : ∀ v ∈ t1, v ∈ up := by obtain ⟨t, e, hsub, -⟩ := s1; obtain rfl : t1 = t := by simpa using e
                                   exact hsub
  have m2 : ∀ v ∈ t2, v ∈ lo := by obtain ⟨t, e, hsub, -⟩ := s2; obtain rfl : t2 = t := by simpa using e
                                   exact hsub
  have mem : ∀ v, v ∈ s.verts ↔ v = L ∨ v ∈ t1 ∨ v = R ∨ v ∈ t2 := by
    intro v; rw [hv]; simp
  obtain ⟨d1, k1⟩ := chain_own c1 s1 hVS ((mem L).mpr (by tauto)) ((mem R).mpr (by tauto)) (fun v hv => (mem v).mpr (by tauto)) (by
    intro v hv
    rcases (mem v).mp hv with h | h | h | h
    · exact Or.inl h
    · exact Or.inr (Or.inr (Or.inl h))
    · exact Or.inr (Or.inl h)
    · exact Or.inr (Or.inr (Or.inr ((hlo v).mp (m2 v h)).2.1)))
  obtain ⟨d2, k2⟩ := chain_own c2 s2 hVS ((mem R).mpr (by tauto)) ((mem L).mpr (by tauto)) (fun v hv => (mem v).mpr (by tauto)) (by
    intro v hv
    rcases (mem v).mp hv with h | h | h | h
    · exact Or.inr (Or.inl h)
    · right; right; right; rw [flip]; have := ((hup v).mp (m1 v h)).2.1; linarith
    · exact Or.inl h
    · exact Or.inr (Or.inr (Or.inl h)))
  have hflat : ¬ Flat s.verts := by
    intro hf
    -- one of the two partitions has a point off the line
    obtain ⟨t1', f1, -, -, r1⟩ := s1
    obtain rfl : t1 = t1' := by simpa using f1
    obtain ⟨t2', f2, -, -, r2⟩ := s2
    obtain rfl : t2 = t2' := by simpa using f2
    have zero : ∀ v ∈ s.verts, side L R v = 0 := fun v hv =>
      hf L ((mem L).mpr (by tauto)) R ((mem R).mpr (by tauto)) v hv
    have some1 : ∀ (Q t : List (Vec2 K)) (p0 p1 : Vec2 K), (∀ p ∈ Q, 0 ≤ side p0 p1 p) → startSide Q p0 p1 = .ok (p0 :: t) →
        Q ≠ [] → t ≠ [] := by
      intro Q t p0 p1 hpos hst hne
      rw [startSide, if_neg (by simpa using hne)] at hst
      obtain ⟨h', g1, g2⟩ := partition_ok Q.length Q p0 p1 le_rfl hne hpos
      rw [hst] at g1
      simp only [Except.ok.injEq] at g1
      rw [← g1] at g2
      rintro rfl
      simp at g2
    have a1 : ∀ v ∈ points, side L R v ≤ 0 := by
      rcases r1 with r1 | r1
      · intro v hv'
        by_contra hcon
        push Not at hcon
        have hu : v ∈ up := c1.all v hv' hcon
        obtain ⟨w, hw⟩ := List.exists_mem_of_ne_nil _ (some1 up t1 L R c1.pos e1 (List.ne_nil_of_mem hu))
        have := r1 w hw
        rw [zero w ((mem w).mpr (by tauto))] at this
        exact absurd this (lt_irrefl _)
      · exact r1
    have a2 : ∀ v ∈ points, side R L v ≤ 0 := by
      rcases r2 with r2 | r2
      · intro v hv'
        by_contra hcon
        push Not at hcon
        have hu : v ∈ lo := c2.all v hv' hcon
        obtain ⟨w, hw⟩ := List.exists_mem_of_ne_nil _ (some1 lo t2 R L c2.pos e2 (List.ne_nil_of_mem hu))
        have := r2 w hw
        rw [flip, zero w ((mem w).mpr (by tauto))] at this
        simp at this
      · exact r2
    apply h
    have z : ∀ v ∈ points, side L R v = 0 := fun v hv => le_antisymm (a1 v hv) (by have := a2 v hv; rw [flip] at this; linarith)
    intro a ha b hb c hc
    have k : (R.x - L.x) * side a b c = (b.x - a.x) * (side L R c - side L R a) - (c.x - a.x) * (side L R b - side L R a) := by
      simp only [side]; ring
    rw [z a ha, z b hb, z c hc] at k
    simp only [sub_self, mul_zero] at k
    rcases mul_eq_zero.mp k with h0 | h0
    · linarith
    · exact h0
  have hright : ∀ e ∈ edges s.verts, ∀ v ∈ s.verts, side e.1 e.2 v ≤ 0 := by
    intro e he
    rw [hv] at he
    obtain ⟨t, f, a1, -⟩ := k1
    obtain rfl : t1 = t := by simpa using f
    obtain ⟨t, f, a2, -⟩ := k2
    obtain rfl : t2 = t := by simpa using f
    rcases List.mem_append.mp ((edges_chains L R t1 t2).mem_iff.mp he) with he | he
    · exact a1 e he
    · exact a2 e he
  refine ⟨hright, ⟨Or.inr hright, ?_⟩, hflat⟩
  have := once_around d1 d2 k1 k2 hlt (fun v hv => (hx v (hVS v hv)).1) (fun v hv => (hx v (hVS v hv)).2) hflat
  rwa [← hv] at this

/-- **C57** exactly: every point is in the hull if and only if no sorted scan that is made loses one of its own points, that is
if all the points it is given are in the hull of the vertices it returns (with the end of its base); and this is also when no
point is on the left of an edge of the hull. (Partial: with scans that lose points the property fails, `C57_violated`.) -/
theorem C57_exact_partial (order : List (Vec2 K) → List (Vec2 K)) (hord : ∀ l, (order l).Perm l) (points : List (Vec2 K))
    (h : ¬ Flat points) (s : Polygon K) (hs : convexHull order points = .ok s) :
    ((∀ p ∈ points, InHull s.verts p) ↔
      ∀ ps a b, Scan order points ps a b → ∀ p ∈ ps, InHull (sortPoints ps a b ++ [b]) p) ∧
    ((∀ p ∈ points, InHull s.verts p) ↔ ∀ e ∈ edges s.verts, ∀ p ∈ points, side e.1 e.2 p ≤ 0) := by
  obtain ⟨hright, -, -⟩ := C57_convex order hord points h s hs
  obtain ⟨L, R, up, lo, t1, t2, hv, hlt, hx, hup, hlo, c1, c2, hsc, e1, e2, s1, s2⟩ := hull_chains hord h hs
  have start : ∀ (Q t : List (Vec2 K)) (p0 p1 : Vec2 K), Q ≠ [] → startSide Q p0 p1 = .ok (p0 :: t) →
      partitionPoints Q p0 p1 = .ok (p0 :: t) := by
    intro Q t p0 p1 hne hst
    rwa [startSide, if_neg (by simpa using hne)] at hst
  have A : (∀ p ∈ points, InHull s.verts p) → ∀ e ∈ edges s.verts, ∀ p ∈ points, side e.1 e.2 p ≤ 0 :=
    fun hin e he p hp => inHull_side (hin p hp) (hright e he)
  have B : (∀ e ∈ edges s.verts, ∀ p ∈ points, side e.1 e.2 p ≤ 0) →
      ∀ ps a b, Scan order points ps a b → ∀ p ∈ ps, InHull (sortPoints ps a b ++ [b]) p := by
    intro hall ps a b hscan p hp
    have main : ∀ (Q t : List (Vec2 K)) (p0 p1 : Vec2 K), Ctx points Q p0 p1 → SortCall Q p0 p1 ps a b →
        startSide Q p0 p1 = .ok (p0 :: t) → (∀ e ∈ edgesFrom p0 (t ++ [p1]), e ∈ edges s.verts) →
        InHull (sortPoints ps a b ++ [b]) p := by
      intro Q t p0 p1 hc hcall hst hedge
      obtain ⟨hQ, hps, hpos⟩ := scan_pos hcall hc
      obtain ⟨w, hw, hsub, -⟩ := scan_convex (fun q hq => (hpos q hq).2) hps
      have hpts := hc.sub p (hpos p hp).1
      have he : ∀ e ∈ edgesFrom a (w ++ [b]), side e.1 e.2 p ≤ 0 := fun e he =>
        hall e (hedge e (scan_edges hcall _ (start Q t p0 p1 hQ hst) t rfl w hw e he)) p hpts
      rw [hw]
      refine inHull_fan (hpos p hp).2 _ (by simp) w a (fun x hx => by simpa using hx) he ?_
      simp [side]
    rcases (hsc ps a b).mpr hscan with hcall | hcall
    · exact main up t1 L R c1 hcall e1 fun e he => by
        rw [hv]; exact (edges_chains L R t1 t2).mem_iff.mpr (List.mem_append_left _ he)
    · exact main lo t2 R L c2 hcall e2 fun e he => by
        rw [hv]; exact (edges_chains L R t1 t2).mem_iff.mpr (List.mem_append_right _ he)
  have C : (∀ ps a b, Scan order points ps a b → ∀ p ∈ ps, InHull (sortPoints ps a b ++ [b]) p) →
      ∀ p ∈ points, InHull s.verts p := by
    intro hscan p hp
    have main : ∀ (Q t : List (Vec2 K)) (p0 p1 : Vec2 K), Ctx points Q p0 p1 →
        (∀ ps a b, SortCall Q p0 p1 ps a b → Scan order points ps a b) → startSide Q p0 p1 = .ok (p0 :: t) → p ∈ Q →
        InHull ((p0 :: t) ++ [p1]) p := by
      intro Q t p0 p1 hc hsc' hst hpQ
      have hne : Q ≠ [] := List.ne_nil_of_mem hpQ
      exact partition_keeps Q.length Q p0 p1 le_rfl hne hc (fun ps a b hcall => hscan ps a b (hsc' ps a b hcall)) _
        (start Q t p0 p1 hne hst) p hpQ
    rw [hv]
    by_cases hpL : p = L
    · exact .vertex _ (by simp [hpL])
    · by_cases hpR : p = R
      · exact .vertex _ (by simp [hpR])
      · rcases lt_or_ge 0 (side L R p) with hs' | hs'
        · refine inHull_mono ?_ (main up t1 L R c1 (fun ps a b hc => (hsc ps a b).mp (Or.inl hc)) e1
            ((hup p).mpr ⟨hp, hs', hpL, hpR⟩))
          intro v hv; simp at hv ⊢; tauto
        · refine inHull_mono ?_ (main lo t2 R L c2 (fun ps a b hc => (hsc ps a b).mp (Or.inr hc)) e2
            ((hlo p).mpr ⟨hp, hs', hpL, hpR⟩))
          intro v hv; simp at hv ⊢; tauto
  exact ⟨⟨fun h => B (A h), C⟩, ⟨A, fun h => C (B h)⟩⟩

/-- The nine points of `C57_violated`. -/
def lossy : List (Vec2 ℚ) := [⟨0, 0⟩, ⟨10, -100⟩, ⟨5, -20⟩, ⟨1/10, 1⟩, ⟨1/2, 2⟩, ⟨1/5, 3/2⟩, ⟨1, 2⟩, ⟨2, 1⟩, ⟨1/20, 3/5⟩]

theorem lossy_not_flat : ¬ Flat lossy := by
  intro h
  have := h ⟨0, 0⟩ (by simp [lossy]) ⟨10, -100⟩ (by simp [lossy]) ⟨5, -20⟩ (by simp [lossy])
  simp only [side] at this
  norm_num at this

theorem lossy_hull : ∃ s, convexHull id lossy = .ok s ∧
    s.verts = [⟨0, 0⟩, ⟨1/2, 2⟩, ⟨1, 2⟩, ⟨2, 1⟩, ⟨5, -20⟩, ⟨10, -100⟩] :=
  convexHull_ok (ok_of (by decide +kernel)) (by simp)

/-- The hypotheses of `C57_convex` and `C57_exact_partial` for points of which some are lost: the hull is convex all the same, one
of the points is on the left of an edge of it, and so there is a sorted scan that loses a point. -/
example : ∃ s, convexHull id lossy = .ok s ∧ Convex s.verts ∧ ¬ Flat s.verts ∧
    ¬ (∀ ps a b, Scan id lossy ps a b → ∀ p ∈ ps, InHull (sortPoints ps a b ++ [b]) p) := by
  obtain ⟨s, hs, hv⟩ := lossy_hull
  have ho : ∀ l : List (Vec2 ℚ), (id l).Perm l := fun l => .refl l
  obtain ⟨-, h1, h2⟩ := C57_convex id ho lossy lossy_not_flat s hs
  refine ⟨s, hs, h1, h2, ?_⟩
  obtain ⟨e1, e2⟩ := C57_exact_partial id ho lossy lossy_not_flat s hs
  rw [← e1, e2]
  intro hall
  have := hall (⟨0, 0⟩, ⟨1/2, 2⟩) (by rw [hv]; simp [edges]) ⟨1/10, 1⟩ (by simp [lossy])
  simp only [side] at this
  norm_num at this

end Planar
