import Verif.Lemmas.HullPartition
/- The hull goes once around. -/
set_option linter.unusedSectionVars false
namespace Planar.Hull
open Spec Polygon
variable {K : Type} [Field K] [LinearOrder K] [IsStrictOrderedRing K]

/-- Left to right for `σ = 1`, right to left for `σ = -1`. -/
def Along (σ : K) (a b : Vec2 K) : Prop := σ * a.x < σ * b.x ∨ (a.x = b.x ∧ σ * a.y ≤ σ * b.y)

theorem along_one (a b : Vec2 K) : Along 1 a b ↔ LexLe a b := by simp [Along, LexLe]
theorem along_neg (a b : Vec2 K) : Along (-1) a b ↔ LexLe b a := by
  simp [Along, LexLe]
  constructor
  · rintro (h | ⟨h1, h2⟩)
    · exact Or.inl h
    · exact Or.inr ⟨h1.symm, h2⟩
  · rintro (h | ⟨h1, h2⟩)
    · exact Or.inl h
    · exact Or.inr ⟨h1.symm, h2⟩

/-- An edge of the chain: forward, or vertical at one of the ends. -/
def Step (σ m M : K) (e : Vec2 K × Vec2 K) : Prop :=
  σ * e.1.x < σ * e.2.x ∨ e.1 = e.2 ∨ (e.1.x = e.2.x ∧ σ * e.1.y ≤ σ * e.2.y ∧ σ * e.1.x = m) ∨
    (e.1.x = e.2.x ∧ σ * e.2.y ≤ σ * e.1.y ∧ σ * e.1.x = M)

theorem steps_end {σ m M : K} (hlt : m < M) (l : List (Vec2 K × Vec2 K)) : ∀ a b : Vec2 K, IsPath a l b → σ * a.x = M →
    (∀ e ∈ l, Step σ m M e) → (∀ e ∈ l, σ * e.2.x ≤ M) → ∀ e ∈ l, Along σ e.2 e.1 := by
  induction l with
  | nil => intro a b _ _ _ _ e he; simp at he
  | cons f l ih =>
    intro a b hp ha hs hM e he
    obtain ⟨rfl, hp⟩ := hp
    have h2 := hM f List.mem_cons_self
    have : Along σ f.2 f.1 ∧ σ * f.2.x = M := by
      rcases hs f List.mem_cons_self with h | h | ⟨h1, h2, h3⟩ | ⟨h1, h2, h3⟩
      · linarith
      · rw [← h]; exact ⟨Or.inr ⟨rfl, le_rfl⟩, ha⟩
      · linarith
      · exact ⟨Or.inr ⟨h1.symm, h2⟩, by rw [← h1]; exact h3⟩
    rcases List.mem_cons.mp he with rfl | he
    · exact this.1
    · exact ih f.2 b hp this.2 (fun e he => hs e (List.mem_cons_of_mem _ he)) (fun e he => hM e (List.mem_cons_of_mem _ he)) e he

theorem steps_split {σ m M : K} (hlt : m < M) (l : List (Vec2 K × Vec2 K)) : ∀ a b : Vec2 K, IsPath a l b →
    (∀ e ∈ l, Step σ m M e) → (∀ e ∈ l, σ * e.2.x ≤ M) →
    ∃ A B, l = A ++ B ∧ (∀ e ∈ A, Along σ e.1 e.2) ∧ ∀ e ∈ B, Along σ e.2 e.1 := by
  induction l with
  | nil => intro a b _ _ _; exact ⟨[], [], rfl, by simp, by simp⟩
  | cons f l ih =>
    intro a b hp hs hM
    have hp0 := hp
    obtain ⟨rfl, hp⟩ := hp
    obtain ⟨A, B, e1, h1, h2⟩ := ih f.2 b hp (fun e he => hs e (List.mem_cons_of_mem _ he))
      (fun e he => hM e (List.mem_cons_of_mem _ he))
    have fwd : Along σ f.1 f.2 → ∃ A B, f :: l = A ++ B ∧ (∀ e ∈ A, Along σ e.1 e.2) ∧ ∀ e ∈ B, Along σ e.2 e.1 := by
      intro h
      refine ⟨f :: A, B, by rw [e1]; rfl, ?_, h2⟩
      intro e he
      rcases List.mem_cons.mp he with rfl | he
      · exact h
      · exact h1 e he
    rcases hs f List.mem_cons_self with h | h | ⟨g1, g2, g3⟩ | ⟨g1, g2, g3⟩
    · exact fwd (Or.inl h)
    · exact fwd (Or.inr ⟨by rw [h], by rw [h]⟩)
    · exact fwd (Or.inr ⟨g1, g2⟩)
    · exact ⟨[], f :: l, rfl, by simp, steps_end hlt _ f.1 b hp0 g3 hs hM⟩

theorem step_of_subHull {S pts h : List (Vec2 K)} {p0 p1 : Vec2 K} (hS : SubHull S pts p0 p1 h) (hc : Ctx S pts p0 p1)
    {σ : K} (hσ : σ = 1 ∨ σ = -1) (hlt : σ * p0.x < σ * p1.x) (h0 : ∀ s ∈ S, σ * p0.x ≤ σ * s.x)
    (h1 : ∀ s ∈ S, σ * s.x ≤ σ * p1.x) (hflat : ¬ Flat S) :
    ∃ t, h = p0 :: t ∧ ∀ e ∈ edgesFrom p0 (t ++ [p1]), Step σ (σ * p0.x) (σ * p1.x) e := by
  obtain ⟨t, rfl, hright, hsub, -, hstrict⟩ := hS
  refine ⟨t, rfl, ?_⟩
  intro e he
  have hr := hright e he
  obtain ⟨ma, mb⟩ := edgesFrom_mem he
  have hpos : ∀ v, v ∈ p0 :: (t ++ [p1]) → v ∈ S ∧ 0 ≤ side p0 p1 v := by
    intro v hv
    rcases List.mem_cons.mp hv with rfl | hv
    · exact ⟨hc.h0, (side_start _ _).ge⟩
    · rcases List.mem_append.mp hv with hv | hv
      · exact ⟨hc.sub v (hsub v hv), hc.pos v (hsub v hv)⟩
      · rw [List.mem_singleton.mp hv]; exact ⟨hc.h1, (side_end _ _).ge⟩
  obtain ⟨aS, apos⟩ := hpos e.1 ma
  obtain ⟨bS, bpos⟩ := hpos e.2 (List.mem_cons_of_mem _ mb)
  have noback : ¬ σ * e.2.x < σ * e.1.x := by
    intro hback
    have d1 := hr p0 hc.h0
    have d2 := hr p1 hc.h1
    have hσσ : σ * σ = 1 := by rcases hσ with rfl | rfl <;> norm_num
    obtain ⟨a, b⟩ := e
    simp only at *
    have on : ∀ c : Vec2 K, (side a b p0 * (p1.x - c.x) + side a b p1 * (c.x - p0.x) = -(b.x - a.x) * side p0 p1 c) →
        c ∈ S → 0 ≤ side p0 p1 c → side p0 p1 c = 0 := by
      intro c hc' cS cpos
      have n1 : side a b p0 * (σ * p1.x - σ * c.x) ≤ 0 :=
        mul_nonpos_of_nonpos_of_nonneg d1 (sub_nonneg.mpr (h1 c cS))
      have n2 : side a b p1 * (σ * c.x - σ * p0.x) ≤ 0 :=
        mul_nonpos_of_nonpos_of_nonneg d2 (sub_nonneg.mpr (h0 c cS))
      have n3 : (σ * a.x - σ * b.x) * side p0 p1 c ≤ 0 := by
        have : (σ * a.x - σ * b.x) * side p0 p1 c =
            side a b p0 * (σ * p1.x - σ * c.x) + side a b p1 * (σ * c.x - σ * p0.x) := by linear_combination (-σ) * hc'
        linarith
      by_contra hne
      have := mul_pos (sub_pos.mpr hback) (lt_of_le_of_ne cpos (Ne.symm hne))
      linarith
    have za := on a (by simp only [side]; ring) aS apos
    have zb := on b (by simp only [side]; ring) bS bpos
    have key : ∀ u v s : Vec2 K, side p0 p1 u = 0 → side p0 p1 v = 0 →
        (p1.x - p0.x) * side u v s = (v.x - u.x) * side p0 p1 s := by
      intro u v s hu hv
      have : (p1.x - p0.x) * side u v s =
          (v.x - u.x) * (side p0 p1 s - side p0 p1 u) - (s.x - u.x) * (side p0 p1 v - side p0 p1 u) := by
        simp only [side]; ring
      rw [this, hu, hv]; ring
    rcases hstrict with hst | hall
    · have ea : a = p0 := by
        rcases List.mem_cons.mp ma with h | h
        · exact h
        · rcases List.mem_append.mp h with h | h
          · have := hst a h; rw [za] at this; exact absurd this (lt_irrefl _)
          · rw [List.mem_singleton.mp h] at hback
            have := h1 b bS
            exfalso
            rcases List.mem_append.mp mb with h' | h'
            · have := hst b h'; rw [zb] at this; exact absurd this (lt_irrefl _)
            · rw [List.mem_singleton.mp h'] at hback; exact absurd hback (lt_irrefl _)
      have := h0 b bS
      rw [ea] at hback
      exact absurd hback (not_lt.mpr this)
    · apply hflat
      have zero : ∀ s ∈ S, side p0 p1 s = 0 := by
        intro s hs
        apply le_antisymm (hall s hs)
        have k := key a b s za zb
        have n1 := mul_nonpos_of_nonneg_of_nonpos (sub_nonneg.mpr hlt.le) (hr s hs)
        have e1 : (σ * p1.x - σ * p0.x) * side a b s = (σ * b.x - σ * a.x) * side p0 p1 s := by linear_combination σ * k
        by_contra hneg
        push Not at hneg
        have := mul_pos_of_neg_of_neg (sub_neg.mpr hback) hneg
        linarith
      intro u hu v hv w hw
      have k := key u v w (zero u hu) (zero v hv)
      rw [zero w hw, mul_zero] at k
      rcases mul_eq_zero.mp k with h | h
      · exfalso
        have : p1.x = p0.x := by linarith
        rw [this] at hlt
        exact absurd hlt (lt_irrefl _)
      · exact h
  rcases (not_lt.mp noback).eq_or_lt with heq | hfw
  · have hx : e.1.x = e.2.x := by rcases hσ with rfl | rfl <;> linarith
    by_cases hy : e.1.y = e.2.y
    · exact Or.inr (Or.inl (Vec2.ext hx hy))
    · have d1 := hr p0 hc.h0
      have d2 := hr p1 hc.h1
      have b0 := h0 e.1 aS
      have b1 := h1 e.1 aS
      obtain ⟨a, b⟩ := e
      simp only at *
      have es : ∀ s : Vec2 K, side a b s = (a.y - b.y) * (s.x - a.x) := by
        intro s; simp only [side]; rw [← hx]; ring
      rw [es] at d1 d2
      rcases lt_or_gt_of_ne hy with hlt' | hgt'
      · rcases hσ with rfl | rfl
        · refine Or.inr (Or.inr (Or.inl ⟨hx, by linarith, le_antisymm ?_ b0⟩))
          by_contra h
          push Not at h
          have := mul_pos_of_neg_of_neg (a := a.y - b.y) (b := p0.x - a.x) (by linarith) (by linarith)
          linarith
        · refine Or.inr (Or.inr (Or.inr ⟨hx, by linarith, le_antisymm b1 ?_⟩))
          by_contra h
          push Not at h
          have := mul_pos_of_neg_of_neg (a := a.y - b.y) (b := p1.x - a.x) (by linarith) (by linarith)
          linarith
      · rcases hσ with rfl | rfl
        · refine Or.inr (Or.inr (Or.inr ⟨hx, by linarith, le_antisymm b1 ?_⟩))
          by_contra h
          push Not at h
          have := mul_pos (a := a.y - b.y) (b := p1.x - a.x) (by linarith) (by linarith)
          linarith
        · refine Or.inr (Or.inr (Or.inl ⟨hx, by linarith, le_antisymm ?_ b0⟩))
          by_contra h
          push Not at h
          have := mul_pos (a := a.y - b.y) (b := p0.x - a.x) (by linarith) (by linarith)
          linarith
  · exact Or.inl hfw

/-- The edges of the hull are those of its two chains. -/
theorem edges_chains (L R : Vec2 K) (t1 t2 : List (Vec2 K)) :
    (edges ((L :: t1) ++ (R :: t2))).IsRotated (edgesFrom L (t1 ++ [R]) ++ edgesFrom R (t2 ++ [L])) := by
  rw [← edgesFrom_cut, List.cons_append, edges_cons]
  refine ⟨1, ?_⟩
  rw [List.rotate_cons_succ, List.rotate_zero, edgesFrom_append L (t1 ++ R :: t2) [L]]
  simp

theorem once_around {S up lo h1 h2 : List (Vec2 K)} {L R : Vec2 K} (c1 : Ctx S up L R) (c2 : Ctx S lo R L)
    (s1 : SubHull S up L R h1) (s2 : SubHull S lo R L h2) (hlt : L.x < R.x) (hL : ∀ s ∈ S, L.x ≤ s.x)
    (hR : ∀ s ∈ S, s.x ≤ R.x) (hflat : ¬ Flat S) : OnceAround (h1 ++ h2) := by
  obtain ⟨t1, rfl, st1⟩ := step_of_subHull (σ := 1) s1 c1 (Or.inl rfl) (by linarith)
    (fun s hs => by have := hL s hs; linarith) (fun s hs => by have := hR s hs; linarith) hflat
  obtain ⟨t2, rfl, st2⟩ := step_of_subHull (σ := -1) s2 c2 (Or.inr rfl) (by linarith)
    (fun s hs => by have := hR s hs; linarith) (fun s hs => by have := hL s hs; linarith) hflat
  obtain ⟨t1', e1, -, m1, -, -⟩ := s1
  obtain ⟨t2', e2, -, m2, -, -⟩ := s2
  obtain rfl : t1 = t1' := by simpa using e1
  obtain rfl : t2 = t2' := by simpa using e2
  obtain ⟨A1, B1, p1, a1, b1⟩ := steps_split (by linarith) _ L R (path_ends L R t1) st1 (by
    intro e he
    have := (edgesFrom_mem he).2
    rcases List.mem_append.mp this with h | h
    · have := hR _ (c1.sub _ (m1 _ h)); linarith
    · rw [List.mem_singleton.mp h])
  obtain ⟨A2, B2, p2, a2, b2⟩ := steps_split (by linarith) _ R L (path_ends R L t2) st2 (by
    intro e he
    have := (edgesFrom_mem he).2
    rcases List.mem_append.mp this with h | h
    · have := hL _ (c2.sub _ (m2 _ h)); linarith
    · rw [List.mem_singleton.mp h])
  refine ⟨B2 ++ A1, B1 ++ A2, ?_, ?_, ?_⟩
  · refine (edges_chains L R t1 t2).trans ?_
    rw [p1, p2]
    have e1 : A1 ++ B1 ++ (A2 ++ B2) = (A1 ++ B1 ++ A2) ++ B2 := by simp
    have e2 : B2 ++ A1 ++ (B1 ++ A2) = B2 ++ (A1 ++ B1 ++ A2) := by simp
    rw [e1, e2]
    exact List.isRotated_append
  · intro e he
    rcases List.mem_append.mp he with h | h
    · exact (along_neg _ _).mp (b2 e h)
    · exact (along_one _ _).mp (a1 e h)
  · intro e he
    rcases List.mem_append.mp he with h | h
    · exact (along_one _ _).mp (b1 e h)
    · exact (along_neg _ _).mp (a2 e h)

end Planar.Hull
