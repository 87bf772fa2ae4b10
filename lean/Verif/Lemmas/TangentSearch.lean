import Verif.Lemmas.Tangent
/- Tangents: the linear scan and the binary search find the extreme directions. -/
set_option linter.unusedSectionVars false
namespace Planar
open Spec
variable {K : Type} [Field K] [LinearOrder K] [IsStrictOrderedRing K]

namespace Polygon

theorem pyGet_atZ (vs : List (Vec2 K)) (i : ℤ) (h1 : -(vs.length : ℤ) ≤ i) (h2 : i < vs.length) :
    pyGet vs i = .ok (atZ vs i) := by
  rw [← nth_atZ vs i h1 h2]
  have : ∃ v, pyGet vs i = .ok v := by
    unfold pyGet pyIndex
    by_cases h : 0 ≤ i
    · have : i.toNat < vs.length := by omega
      simp [this, h]
    · have g1 : (-i).toNat ≤ vs.length := by omega
      have g2 : vs.length - (-i).toNat < vs.length := by omega
      simp [h, g1, List.getElem?_eq_getElem g2]
  obtain ⟨v, hv⟩ := this
  rw [hv]; unfold nth; simp [hv]

theorem atZ_mem {vs : List (Vec2 K)} (h : 0 < vs.length) (i : ℤ) : atZ vs i ∈ vs := by
  obtain ⟨k, hk, -, e⟩ := atZ_nat vs h i
  rw [e]; exact List.getElem_mem hk

/-! ### the linear scan -/

/-- The linear scan finds the vertices where the direction is least and greatest, for every polygon. -/
theorem slow_spec {vs : List (Vec2 K)} {p : Vec2 K} {F : Vec2 K → K} (h2 : 2 ≤ vs.length)
    (hF : ∀ u ∈ vs, ∀ v ∈ vs, 0 < turn p u v ↔ F u < F v) :
    ∃ l r, ptTangents vs p = .ok (l, r) ∧ ∀ x ∈ vs, F r ≤ F x ∧ F x ≤ F l := by
  have hle : ∀ u ∈ vs, ∀ v ∈ vs, turn p u v ≤ 0 ↔ F v ≤ F u := fun u hu v hv => by
    rw [← not_lt, hF u hu v hv, not_lt]
  have hge : ∀ u ∈ vs, ∀ v ∈ vs, 0 ≤ turn p u v ↔ F u ≤ F v := fun u hu v hv => by
    rw [← hle v hv u hu, turn_swap p u v, neg_nonpos]
  have e0 := pyGet_atZ vs 0 (by omega) (by omega)
  have e1 := pyGet_atZ vs (-1) (by omega) (by omega)
  have e2 := pyGet_atZ vs (-2) (by omega) (by omega)
  simp only [ptTangents, e0, e1, e2, bind, Except.bind, pure, Except.pure]
  have m0 := atZ_mem (vs := vs) (by omega) 0
  have m1 := atZ_mem (vs := vs) (by omega) (-1)
  have m2 := atZ_mem (vs := vs) (by omega) (-2)
  have q0 : atZ vs 0 = vs[0] := atZ_lt vs 0 (by omega)
  -- the last two vertices
  have hlast : ∃ m, vs = m ++ [atZ vs (-2), atZ vs (-1)] := by
    refine ⟨vs.take (vs.length - 2), ?_⟩
    have a1 : atZ vs (-1) = vs[vs.length - 1] := by
      rw [← atZ_lt vs (vs.length - 1) (by omega)]; apply atZ_congr; rw [Int.modEq_iff_dvd]; exact ⟨1, by push_cast [show 1 ≤ vs.length by omega]; ring⟩
    have a2 : atZ vs (-2) = vs[vs.length - 2] := by
      rw [← atZ_lt vs (vs.length - 2) (by omega)]; apply atZ_congr; rw [Int.modEq_iff_dvd]; exact ⟨1, by push_cast [h2]; ring⟩
    rw [a1, a2]
    apply List.ext_getElem
    · simp; omega
    · intro i g1 g2
      rw [List.getElem_append]
      split_ifs with h
      · simp
      · simp at h
        have : i = vs.length - 2 ∨ i = vs.length - 1 := by omega
        rcases this with rfl | rfl
        · simp [Nat.min_def]
        · have : vs.length - 1 - (vs.length - 2) = 1 := by omega
          simp [this]
  obtain ⟨v1, rest, hvs⟩ : ∃ v1 rest, vs = v1 :: rest := by
    cases vs with
    | nil => simp at h2
    | cons a l => exact ⟨a, l, rfl⟩
  have hv1 : v1 = atZ vs 0 := by rw [q0]; simp [hvs]
  generalize atZ vs (-1) = z at *
  generalize atZ vs (-2) = y at *
  obtain ⟨m, hm⟩ := hlast
  have s1 : (v1 :: rest).getLast (by simp) = z := by
    have : (v1 :: rest) = m ++ [y, z] := by rw [← hvs]; exact hm
    simp [this]
  have s2 : [y, z] <:+ v1 :: rest := ⟨m, by rw [← hvs]; exact hm.symm⟩
  obtain ⟨l', r', he, hr', hl'⟩ := loop_step p v1 rest z (turn p y z) (atZ vs 0) (atZ vs 0)
  rw [← hvs] at he
  have m0' : v1 ∈ vs := by rw [hv1]; exact m0
  rw [← hv1] at hr' hl'
  have mr : r' ∈ vs := by rw [hr']; split_ifs; exacts [m1, m0']
  have ml : l' ∈ vs := by rw [hl']; split_ifs; exacts [m1, m0']
  have fr : F r' ≤ F v1 := by
    rw [hr']; split_ifs with h
    · exact (hge _ m1 _ m0').mp h.2.2
    · exact le_rfl
  have fl : F v1 ≤ F l' := by
    rw [hl']; split_ifs with h
    · exact (hle _ m1 _ m0').mp h.2.2
    · exact le_rfl
  have frz : turn p y z ≤ 0 → F r' ≤ F z := by
    intro hpt
    rcases le_or_gt (turn p z v1) 0 with g | g
    · exact fr.trans ((hle _ m1 _ m0').mp g)
    · rw [hr']; split_ifs with h
      · exact le_rfl
      · exact absurd ⟨hpt, g, g.le⟩ h
  have flz : 0 < turn p y z → F z ≤ F l' := by
    intro hpt
    rcases le_or_gt (turn p z v1) 0 with g | g
    · rw [hl']; split_ifs with h
      · exact le_rfl
      · exact absurd ⟨hpt, g, g⟩ h
    · exact ((hF _ m1 _ m0').mp g).le.trans fl
  have hR := loop_right hF rest v1 (turn p z v1) l' r' (fun x => x = v1) (by rw [hvs]; simp +contextual) m0' mr
    (by rintro x rfl; exact Or.inl fr) (fun _ => fr)
  have hL := loop_left hF rest v1 (turn p z v1) l' r' (fun x => x = v1) (by rw [hvs]; simp +contextual) m0' ml
    (by rintro x rfl; exact Or.inl fl) (fun _ => fl)
  simp only [s1] at hR hL
  refine ⟨_, _, rfl, ?_⟩
  rw [he]
  intro x hx
  have hx' : x = v1 ∨ x ∈ rest := by rw [hvs] at hx; simpa using hx
  constructor
  · rcases hR.2 x hx' with h | ⟨h, h'⟩
    · exact h
    · exact (hR.1.trans (frz (h' y s2))).trans h
  · rcases hL.2 x hx' with h | ⟨h, h'⟩
    · exact h
    · exact h.trans ((flz (h' y s2)).trans hL.1)

end Polygon

open Polygon
/-! ### one crossing of any line -/

/-- A point moving on a line with constant direction cannot go both ways. -/
theorem lex_line {m m' n n' s t s' t' : K} (h : s < t) (h' : t' < s')
    (h1 : LexLe (⟨m * s + m', n * s + n'⟩ : Vec2 K) ⟨m * t + m', n * t + n'⟩)
    (h2 : LexLe (⟨m * s' + m', n * s' + n'⟩ : Vec2 K) ⟨m * t' + m', n * t' + n'⟩) : m = 0 ∧ n = 0 := by
  have gt : 0 < t - s := by linarith
  have gs : 0 < s' - t' := by linarith
  simp only [LexLe] at h1 h2
  have a1 : 0 ≤ m := by
    by_contra hc
    have := mul_pos (neg_pos.mpr (not_le.mp hc)) gt
    rcases h1 with h | h
    · linarith
    · linarith [h.1]
  have a2 : m ≤ 0 := by
    by_contra hc
    have := mul_pos (not_le.mp hc) gs
    rcases h2 with h | h
    · linarith
    · linarith [h.1]
  have hm : m = 0 := le_antisymm a2 a1
  subst hm
  refine ⟨rfl, ?_⟩
  have b1 : 0 ≤ n := by
    by_contra hc
    have := mul_pos (neg_pos.mpr (not_le.mp hc)) gt
    rcases h1 with h | h
    · linarith
    · linarith [h.2]
  have b2 : n ≤ 0 := by
    by_contra hc
    have := mul_pos (not_le.mp hc) gs
    rcases h2 with h | h
    · linarith
    · linarith [h.2]
  exact le_antisymm b2 b1

/-- In a convex polygon at most one edge crosses a line from its negative to its other side. -/
theorem one_crossing_line {vs : List (Vec2 K)} (hc : Convex vs) (α β γ : K) (hne0 : 0 < α * α + β * β) :
    (edges vs).Pairwise (fun e f => ¬ ((α * e.1.x + β * e.1.y + γ < 0 ∧ 0 ≤ α * e.2.x + β * e.2.y + γ) ∧
      (α * f.1.x + β * f.1.y + γ < 0 ∧ 0 ≤ α * f.2.x + β * f.2.y + γ))) := by
  obtain ⟨ho, there, back, hr, ht, hb⟩ := hc
  by_cases hne : vs = []
  · subst hne; simp [edges]
  obtain ⟨z, hz⟩ := path_rotate (edges_path hne) hr
  obtain ⟨w, hz1, hz2⟩ := isPath_append.mp hz
  have p1 := (path_lex hz1 ht).2
  have p2 := path_lex' hz2 hb
  have hmem : ∀ e ∈ there ++ back, e ∈ edges vs := fun e he => hr.mem_iff.mpr he
  obtain ⟨g, hg⟩ : ∃ g : Vec2 K → K, g = fun v => α * v.x + β * v.y + γ := ⟨_, rfl⟩
  have line : ∀ e ∈ there ++ back, ∀ f ∈ there ++ back, (g e.1 < 0 ∧ 0 ≤ g e.2) → (g f.1 < 0 ∧ 0 ≤ g f.2) →
      ∃ m m' n n' : K, e.1 = ⟨m * g e.1 + m', n * g e.1 + n'⟩ ∧ e.2 = ⟨m * g e.2 + m', n * g e.2 + n'⟩ ∧
        f.1 = ⟨m * g f.1 + m', n * g f.1 + n'⟩ ∧ f.2 = ⟨m * g f.2 + m', n * g f.2 + n'⟩ := by
    intro e he f hf ue uf
    have sc : ∀ a b c : Vec2 K, side (⟨β * a.x - α * a.y, g a⟩ : Vec2 K) ⟨β * b.x - α * b.y, g b⟩ ⟨β * c.x - α * c.y, g c⟩ =
        (α * α + β * β) * side a b c := by
      intro a b c; simp only [side, hg]; ring
    obtain ⟨k, l, h1, h2, h3, h4⟩ := same_line (a := ⟨β * e.1.x - α * e.1.y, g e.1⟩) (b := ⟨β * e.2.x - α * e.2.y, g e.2⟩)
      (c := ⟨β * f.1.x - α * f.1.y, g f.1⟩) (d := ⟨β * f.2.x - α * f.2.y, g f.2⟩) (h := 0) ue uf (by
        rw [sc, sc, sc, sc]
        rcases pairs_side ho (hmem e he) (hmem f hf) with ⟨h1, h2, h3, h4⟩ | ⟨h1, h2, h3, h4⟩
        · exact Or.inl ⟨mul_nonneg hne0.le h1, mul_nonneg hne0.le h2, mul_nonneg hne0.le h3, mul_nonneg hne0.le h4⟩
        · exact Or.inr ⟨mul_nonpos_of_nonneg_of_nonpos hne0.le h1, mul_nonpos_of_nonneg_of_nonpos hne0.le h2,
            mul_nonpos_of_nonneg_of_nonpos hne0.le h3, mul_nonpos_of_nonneg_of_nonpos hne0.le h4⟩)
    simp only at h1 h2 h3 h4
    have fin : ∀ v : Vec2 K, β * v.x - α * v.y = k * g v + l →
        v = ⟨(β * k + α) / (α * α + β * β) * g v + (β * l - α * γ) / (α * α + β * β),
          (β - α * k) / (α * α + β * β) * g v + (-β * γ - α * l) / (α * α + β * β)⟩ := by
      intro v hv
      have hgv : g v = α * v.x + β * v.y + γ := by rw [hg]
      obtain ⟨D, hD⟩ : ∃ D, D = α * α + β * β := ⟨_, rfl⟩
      have hD0 : D ≠ 0 := by rw [hD]; exact hne0.ne'
      rw [← hD]
      apply Vec2.ext
      · simp only; field_simp; rw [hD]; linear_combination β * hv - α * hgv
      · simp only; field_simp; rw [hD]; linear_combination -α * hv - β * hgv
    exact ⟨_, _, _, _, fin _ h1, fin _ h2, fin _ h3, fin _ h4⟩
  have con : ∀ e ∈ there ++ back, ∀ f ∈ there ++ back, (g e.1 < 0 ∧ 0 ≤ g e.2) → (g f.1 < 0 ∧ 0 ≤ g f.2) →
      ∀ a ∈ [e.1, e.2, f.1, f.2], ∀ b ∈ [e.1, e.2, f.1, f.2], ∀ c ∈ [e.1, e.2, f.1, f.2], ∀ d ∈ [e.1, e.2, f.1, f.2],
      g a < g b → g d < g c → LexLe a b → LexLe c d → False := by
    intro e he f hf ue uf a ha b hb c hc d hd hab hcd l1 l2
    obtain ⟨m, m', n, n', h1, h2, h3, h4⟩ := line e he f hf ue uf
    have all : ∀ v ∈ [e.1, e.2, f.1, f.2], v = ⟨m * g v + m', n * g v + n'⟩ := by
      intro v hv
      simp only [List.mem_cons, List.not_mem_nil, or_false] at hv
      rcases hv with rfl | rfl | rfl | rfl
      exacts [h1, h2, h3, h4]
    rw [all a ha, all b hb] at l1
    rw [all c hc, all d hd] at l2
    obtain ⟨rfl, rfl⟩ := lex_line hab hcd l1 l2
    have : a = b := by rw [all a ha, all b hb]; simp
    rw [this] at hab
    exact lt_irrefl _ hab
  have sym : Symmetric (fun e f : Vec2 K × Vec2 K => ¬ ((g e.1 < 0 ∧ 0 ≤ g e.2) ∧ (g f.1 < 0 ∧ 0 ≤ g f.2))) :=
    fun e f hef hfe => hef ⟨hfe.2, hfe.1⟩
  suffices (edges vs).Pairwise (fun e f => ¬ ((g e.1 < 0 ∧ 0 ≤ g e.2) ∧ (g f.1 < 0 ∧ 0 ≤ g f.2))) by
    simpa only [hg] using this
  rw [hr.perm.pairwise_iff (fun {a b} h => sym h), List.pairwise_append]
  refine ⟨?_, ?_, ?_⟩
  · refine p1.imp_of_mem ?_
    rintro e f he hf hef ⟨ue, uf⟩
    exact con e (by simp [he]) f (by simp [hf]) ue uf e.1 (by simp) e.2 (by simp) e.2 (by simp) f.1 (by simp)
      (ue.1.trans_le ue.2) (uf.1.trans_le ue.2) (ht e he) hef
  · refine p2.imp_of_mem ?_
    rintro e f he hf hef ⟨ue, uf⟩
    exact con e (by simp [he]) f (by simp [hf]) ue uf f.1 (by simp) e.2 (by simp) e.2 (by simp) e.1 (by simp)
      (uf.1.trans_le ue.2) (ue.1.trans_le ue.2) hef (hb e he)
  · rintro e he f hf ⟨ue, uf⟩
    exact con e (by simp [he]) f (by simp [hf]) ue uf e.1 (by simp) e.2 (by simp) f.2 (by simp) f.1 (by simp)
      (ue.1.trans_le ue.2) (uf.1.trans_le uf.2) (ht e he) (hb f hf)

/-- Edges by position: at two different positions an edge does not cross the same line the same way. -/
theorem one_crossing_pos {vs : List (Vec2 K)} (h2 : 2 ≤ vs.length) (hc : Convex vs) (α β γ : K) (hne0 : 0 < α * α + β * β)
    {s t : ℤ} (hst : s < t) (htn : t < s + vs.length)
    (hs : α * (atZ vs (s - 1)).x + β * (atZ vs (s - 1)).y + γ < 0 ∧ 0 ≤ α * (atZ vs s).x + β * (atZ vs s).y + γ)
    (ht : α * (atZ vs (t - 1)).x + β * (atZ vs (t - 1)).y + γ < 0 ∧ 0 ≤ α * (atZ vs t).x + β * (atZ vs t).y + γ) : False := by
  have hp := one_crossing_line hc α β γ hne0
  rw [edges_atZ vs h2, List.pairwise_map] at hp
  have hn : (0 : ℤ) < vs.length := by omega
  have key : ∀ i j : ℕ, i < j → j < vs.length →
      ¬ ((α * (atZ vs ((i : ℤ) - 1)).x + β * (atZ vs ((i : ℤ) - 1)).y + γ < 0 ∧ 0 ≤ α * (atZ vs i).x + β * (atZ vs i).y + γ) ∧
        (α * (atZ vs ((j : ℤ) - 1)).x + β * (atZ vs ((j : ℤ) - 1)).y + γ < 0 ∧ 0 ≤ α * (atZ vs j).x + β * (atZ vs j).y + γ)) := by
    intro i j hij hj
    have := List.pairwise_iff_getElem.mp hp i j (by simp; omega) (by simpa using hj) hij
    simpa only [List.getElem_range] using this
  -- the residues
  have res : ∀ u : ℤ, ∃ k : ℕ, k < vs.length ∧ atZ vs ((k : ℤ) - 1) = atZ vs (u - 1) ∧ atZ vs k = atZ vs u ∧
      (k : ℤ) = u % vs.length := by
    intro u
    have e1 : ((u % vs.length).toNat : ℤ) = u % vs.length := Int.toNat_of_nonneg (Int.emod_nonneg _ hn.ne')
    refine ⟨(u % vs.length).toNat, ?_, ?_, ?_, e1⟩
    · have := Int.emod_lt_of_pos u hn; omega
    · rw [e1]; apply atZ_congr; exact (Int.mod_modEq u vs.length).sub_right 1
    · rw [e1]; apply atZ_congr; exact Int.mod_modEq u vs.length
  obtain ⟨k, hk, a1, a2, a3⟩ := res s
  obtain ⟨l, hl, b1, b2, b3⟩ := res t
  rw [← a1, ← a2] at hs
  rw [← b1, ← b2] at ht
  have hkl : k ≠ l := by
    rintro rfl
    have : s ≡ t [ZMOD vs.length] := by unfold Int.ModEq; rw [← a3, ← b3]
    obtain ⟨c, hc⟩ := (Int.modEq_iff_dvd.mp this)
    have c0 : 0 < c := by
      by_contra h
      have := mul_nonneg hn.le (neg_nonneg.mpr (not_lt.mp h))
      linarith
    have c1 : c < 1 := by
      by_contra h
      have := mul_nonneg hn.le (sub_nonneg.mpr (not_lt.mp h))
      linarith
    omega
  rcases lt_or_gt_of_ne hkl with h | h
  · exact key k l h hl ⟨hs, ht⟩
  · exact key l k h hk ⟨ht, hs⟩

/-! ### two peaks are impossible -/

/-- A walk from below a level to at or above it goes up through it. -/
theorem up_step {f : ℤ → K} {θ : K} {i j : ℤ} (hij : i < j) (h1 : f i < θ) (h2 : θ ≤ f j) :
    ∃ s, i < s ∧ s ≤ j ∧ f (s - 1) < θ ∧ θ ≤ f s := by
  obtain ⟨d, rfl⟩ : ∃ d : ℕ, j = i + 1 + d := ⟨(j - i - 1).toNat, by omega⟩
  induction d with
  | zero => exact ⟨i + 1, by omega, by omega, by simpa using h1, by simpa using h2⟩
  | succ d ih =>
    by_cases h : θ ≤ f (i + 1 + d)
    · obtain ⟨s, s1, s2, s3⟩ := ih (by omega) h
      exact ⟨s, s1, by push_cast; omega, s3⟩
    · refine ⟨i + 1 + (d + 1 : ℕ), by push_cast; omega, le_rfl, ?_, h2⟩
      rw [show i + 1 + ((d + 1 : ℕ) : ℤ) - 1 = i + 1 + d by push_cast; ring]
      exact not_le.mp h

/-- Around a convex polygon the direction seen from an exterior point rises once and falls once. -/
def Unimodal (f : ℤ → K) (n : ℤ) : Prop :=
  ∀ i j k l : ℤ, i < j → j < k → k < l → l ≤ i + n → f i < f j → f k < f j → f k < f l → f i < f l → False

theorem unimodal {vs : List (Vec2 K)} {p : Vec2 K} {F : Vec2 K → K} (h2 : 2 ≤ vs.length) (hc : Convex vs)
    (hF : ∀ u ∈ vs, ∀ v ∈ vs, 0 < Polygon.turn p u v ↔ F u < F v) : Unimodal (fun i => F (atZ vs i)) vs.length := by
  intro i j k l hij hjk hkl hli h1 h2' h3 h4
  simp only at h1 h2' h3 h4
  have mem : ∀ i, atZ vs i ∈ vs := fun i => Polygon.atZ_mem (by omega) i
  obtain ⟨w, hw, hwj, hwl, hwi, hwk⟩ : ∃ w ∈ vs, F w ≤ F (atZ vs j) ∧ F w ≤ F (atZ vs l) ∧ F (atZ vs i) < F w ∧
      F (atZ vs k) < F w := by
    rcases le_total (F (atZ vs j)) (F (atZ vs l)) with h | h
    · exact ⟨atZ vs j, mem j, le_rfl, h, h1, h2'⟩
    · exact ⟨atZ vs l, mem l, h, le_rfl, h4, h3⟩
  obtain ⟨s, s1, s2, s3, s4⟩ := up_step (f := fun i => F (atZ vs i)) hij hwi hwj
  obtain ⟨t, t1, t2, t3, t4⟩ := up_step (f := fun i => F (atZ vs i)) hkl hwk hwl
  have tr : ∀ v : Vec2 K, Polygon.turn p w v =
      -(w.y - p.y) * v.x + (w.x - p.x) * v.y + ((w.y - p.y) * p.x - (w.x - p.x) * p.y) := by
    intro v; simp only [Polygon.turn]; ring
  have neg : ∀ i, F (atZ vs i) < F w → -(w.y - p.y) * (atZ vs i).x + (w.x - p.x) * (atZ vs i).y +
      ((w.y - p.y) * p.x - (w.x - p.x) * p.y) < 0 := by
    intro i h
    rw [← tr, Polygon.turn_swap, neg_lt_zero]
    exact (hF _ (mem i) _ hw).mpr h
  have nn : ∀ i, F w ≤ F (atZ vs i) → 0 ≤ -(w.y - p.y) * (atZ vs i).x + (w.x - p.x) * (atZ vs i).y +
      ((w.y - p.y) * p.x - (w.x - p.x) * p.y) := by
    intro i h
    rw [← tr, Polygon.turn_swap, neg_nonneg]
    by_contra hc
    exact absurd ((hF _ (mem i) _ hw).mp (not_le.mp hc)) (not_lt.mpr h)
  have hne0 : 0 < -(w.y - p.y) * -(w.y - p.y) + (w.x - p.x) * (w.x - p.x) := by
    rcases (add_nonneg (mul_self_nonneg (-(w.y - p.y))) (mul_self_nonneg (w.x - p.x))).eq_or_lt with h | h
    · obtain ⟨q1, q2⟩ := (add_eq_zero_iff_of_nonneg (mul_self_nonneg _) (mul_self_nonneg _)).mp h.symm
      have r1 := mul_self_eq_zero.mp q1
      have r2 := mul_self_eq_zero.mp q2
      have := neg i hwi
      rw [← tr] at this
      have e : Polygon.turn p w (atZ vs i) = 0 := by
        rw [show Polygon.turn p w (atZ vs i) = -(w.y - p.y) * ((atZ vs i).x - p.x) + (w.x - p.x) * ((atZ vs i).y - p.y) by
          simp only [Polygon.turn]; ring, r1, r2]; ring
      linarith
    · exact h
  exact one_crossing_pos h2 hc _ _ _ hne0 (s := s) (t := t) (by omega) (by omega) ⟨neg _ s3, nn _ s4⟩ ⟨neg _ t3, nn _ t4⟩


/-! ### the binary search -/

/-- Neighbours at the same level only at the top or at the bottom, and never three in a row. -/
structure Plateaus (f : ℤ → K) : Prop where
  ext : ∀ i, f i = f (i + 1) → (∀ j, f j ≤ f i) ∨ (∀ j, f i ≤ f j)
  two : ∀ i, f i = f (i + 1) → f (i + 1) ≠ f (i + 2)

/-- The value at `i` is lower than before and no higher than after. -/
def LowL (f : ℤ → K) (i : ℤ) : Prop := f i ≤ f (i + 1) ∧ f i < f (i - 1)

/-- The value at `i` is lower than at both neighbours. -/
def Low (f : ℤ → K) (i : ℤ) : Prop := f i < f (i + 1) ∧ f i < f (i - 1)

theorem argmin (f : ℤ → K) (a c : ℤ) (h : a ≤ c) :
    ∃ m, a ≤ m ∧ m ≤ c ∧ (∀ i, a ≤ i → i ≤ c → f m ≤ f i) ∧ ∀ i, a ≤ i → i < m → f m < f i := by
  obtain ⟨d, rfl⟩ : ∃ d : ℕ, c = a + d := ⟨(c - a).toNat, by omega⟩
  induction d with
  | zero => exact ⟨a, le_rfl, by simp, fun i h1 h2 => by rw [show i = a by simp at h2; omega], fun i _ _ => by omega⟩
  | succ d ih =>
    obtain ⟨m, m1, m2, m3, m4⟩ := ih (by omega)
    push_cast at h ⊢
    rcases le_or_gt (f m) (f (a + d + 1)) with g | g
    · refine ⟨m, m1, by omega, fun i h1 h2 => ?_, m4⟩
      rcases lt_or_eq_of_le h2 with h | h
      · exact m3 i h1 (by omega)
      · rw [h, ← add_assoc]; exact g
    · refine ⟨a + d + 1, by omega, by omega, fun i h1 h2 => ?_, fun i h1 h2 => g.trans_le (m3 i h1 (by omega))⟩
      rcases lt_or_eq_of_le h2 with h | h
      · exact g.le.trans (m3 i h1 (by omega))
      · rw [h, ← add_assoc]

/-- Between two points where the walk is higher than inside, there is a low point. -/
theorem lowL_between {f : ℤ → K} {a c : ℤ} (hac : a ≤ c)
    (ha : ∃ i, a ≤ i ∧ i ≤ c ∧ f i < f a) (hc : ∃ i, a ≤ i ∧ i < c ∧ f i ≤ f c) : ∃ t, a < t ∧ t < c ∧ LowL f t := by
  obtain ⟨m, m1, m2, m3, m4⟩ := argmin f a c hac
  obtain ⟨i, i1, i2, i3⟩ := ha
  obtain ⟨j, j1, j2, j3⟩ := hc
  have ma : m ≠ a := by rintro rfl; exact absurd i3 (not_lt.mpr (m3 i i1 i2))
  have mc : m ≠ c := by rintro rfl; exact absurd j3 (not_le.mpr (m4 j j1 j2))
  exact ⟨m, by omega, by omega, m3 _ (by omega) (by omega), m4 _ (by omega) (by omega)⟩

/-- One step of the left search keeps a low point strictly inside the interval. -/
theorem search_stepL {f : ℤ → K} {n : ℤ} (hper : ∀ i, f (i + n) = f i) (hpl : Plateaus f) (hu : Unimodal f n)
    {a b c : ℤ} (hba : b ≤ a + n) (hac : a < c) (hcb : c < b) (hA : ¬ LowL f a) (hC : ¬ LowL f c)
    (ht : ∃ t, a < t ∧ t < b ∧ LowL f t) :
    if f (a + 1) < f a then
      if ¬ f (c + 1) < f c ∨ f a < f c then ∃ t, a < t ∧ t < c ∧ LowL f t else ∃ t, c < t ∧ t < b ∧ LowL f t
    else if f (c + 1) < f c ∨ ¬ f c < f a then ∃ t, c < t ∧ t < b ∧ LowL f t else ∃ t, a < t ∧ t < c ∧ LowL f t := by
  have low' : ∀ i, ¬ LowL f i → ¬ f (i + 1) < f i → f (i - 1) ≤ f i := by
    intro i h1 h2
    by_contra h
    exact h1 ⟨not_lt.mp h2, not_le.mp h⟩
  have right : (∀ t, a < t → t < c → LowL f t → False) → ∃ t, c < t ∧ t < b ∧ LowL f t := by
    intro h
    obtain ⟨t, t1, t2, t3⟩ := ht
    refine ⟨t, ?_, t2, t3⟩
    rcases lt_trichotomy t c with g | g | g
    · exact (h t t1 g t3).elim
    · rw [g] at t3; exact absurd t3 hC
    · exact g
  have pa : f (a + n) = f a := hper a
  have pa1 : f (a + n + 1) = f (a + 1) := by rw [show a + n + 1 = (a + 1) + n by ring, hper]
  have pam : f (a + n - 1) = f (a - 1) := by rw [show a + n - 1 = (a - 1) + n by ring, hper]
  -- where the walk rises after a low point
  have rise : ∀ t, LowL f t → ∃ u, (u = t + 1 ∨ (u = t + 2 ∧ f (t + 1) = f t ∧ ∀ j, f t ≤ f j)) ∧ f t < f u := by
    rintro t ⟨l1, l2⟩
    rcases lt_or_eq_of_le l1 with h | h
    · exact ⟨t + 1, Or.inl rfl, h⟩
    · have hmin : ∀ j, f t ≤ f j := by
        rcases hpl.ext t h with g | g
        · exact absurd (g (t - 1)) (not_le.mpr l2)
        · exact g
      refine ⟨t + 2, Or.inr ⟨rfl, h.symm, hmin⟩, lt_of_le_of_ne (hmin _) ?_⟩
      rw [h]; exact hpl.two t h
  split_ifs with hup h1 h2
  · rcases h1 with h1 | h1
    · exact lowL_between hac.le ⟨a + 1, by omega, by omega, hup⟩ ⟨c - 1, by omega, by omega, low' c hC h1⟩
    · exact lowL_between hac.le ⟨a + 1, by omega, by omega, hup⟩ ⟨a, le_rfl, hac, h1.le⟩
  · push Not at h1
    obtain ⟨h1, h2⟩ := h1
    apply right
    intro t t1 t2 hl
    obtain ⟨u, hu1, hu2⟩ := rise t hl
    have huc : u ≤ c := by
      rcases hu1 with h | ⟨h, h', hm⟩
      · omega
      · by_contra hc
        have : c = t + 1 := by omega
        rw [this, h'] at h1
        exact absurd (hm _) (not_le.mpr h1)
    have hut : t < u := by rcases hu1 with h | h <;> omega
    have hcn : c + 1 ≠ a + n := by
      intro h
      rw [h, pa] at h1
      exact absurd h2 (not_le.mpr h1)
    have h3 : f (c + 1) < f a := h1.trans_le h2
    rcases le_or_gt (f a) (f t) with g | g
    · exact hu (a + 1) u (c + 1) (a + n) (by omega) (by omega) (by omega) (by omega)
        ((hup.trans_le g).trans hu2) ((h3.trans_le g).trans hu2) (by rw [pa]; exact h3) (by rw [pa]; exact hup)
    · rcases lt_or_ge (f (c + 1)) (f u) with q | q
      · exact hu t u (c + 1) (a + n) (by omega) (by omega) (by omega) (by omega) hu2 q (by rw [pa]; exact h3)
          (by rw [pa]; exact g)
      · exact hu t c (c + 1) (a + n) (by omega) (by omega) (by omega) (by omega) ((hu2.trans_le q).trans h1) h1
          (by rw [pa]; exact h3) (by rw [pa]; exact g)
  · have hpre := low' a hA hup
    have hup := not_lt.mp hup
    apply right
    intro t t1 t2 hl
    obtain ⟨u, hu1, hu2⟩ := rise t hl
    obtain ⟨l1, l2⟩ := hl
    have hut : t < u := by rcases hu1 with h | h <;> omega
    have hu3 : u ≤ t + 2 := by rcases hu1 with h | h <;> omega
    have ht2 : a + 1 < t := by
      rcases lt_or_eq_of_le (show a + 1 ≤ t by omega) with h | h
      · exact h
      · rw [← h, add_sub_cancel_right] at l2
        exact absurd l2 (not_lt.mpr hup)
    -- when the walk falls after `c`, and `c` is no higher than `t`
    have falls : f (c + 1) < f c → f c ≤ f t → f t < f a → False := by
      intro g1 g2 g3
      have huc : u < c := by
        rcases hu1 with h | ⟨h, h', hm⟩
        · rcases lt_or_eq_of_le (show u ≤ c by omega) with q | q
          · exact q
          · rw [q] at hu2; exact absurd hu2 (not_lt.mpr g2)
        · exact absurd (hm (c + 1)) (not_le.mpr (g1.trans_le g2))
      exact hu t u c (a + n) hut huc (by omega) (by omega) hu2 (g2.trans_lt hu2) (by rw [pa]; exact g2.trans_lt g3)
        (by rw [pa]; exact g3)
    rcases lt_or_eq_of_le hup with hup | hup
    · obtain ⟨j, j1, j2, j3, j4⟩ : ∃ j, a < j ∧ j < t ∧ f a < f j ∧ f t < f j := by
        rcases le_total (f (a + 1)) (f (t - 1)) with h | h
        · exact ⟨t - 1, by omega, by omega, hup.trans_le h, l2⟩
        · exact ⟨a + 1, by omega, by omega, hup, l2.trans_le h⟩
      have viau : f a < f u → False := fun h => hu a j t u j1 j2 hut (by omega) j3 j4 hu2 h
      by_cases hd : f (c + 1) < f c
      · rcases lt_or_ge (f a) (f u) with q | q
        · exact viau q
        · rcases lt_or_ge (f t) (f c) with r | r
          · rcases le_or_gt (f (a + 1)) (f (c + 1)) with s | s
            · exact hu a j t c j1 j2 (by omega) (by omega) j3 j4 r (hup.trans (s.trans_lt hd))
            · exact hu t c (c + 1) (a + n + 1) (by omega) (by omega) (by omega) (by omega) r hd (by rw [pa1]; exact s)
                (by rw [pa1]; exact (hu2.trans_le q).trans hup)
          · exact falls hd r (hu2.trans_le q)
      · have hca : f a ≤ f c := by
          rcases h2 with h | h
          · exact absurd h hd
          · exact not_lt.mp h
        have hd := not_lt.mp hd
        rcases lt_or_ge (f a) (f (c + 1)) with g | g
        · rcases lt_or_ge (f t) (f (c + 1)) with q | q
          · exact hu a j t (c + 1) j1 j2 (by omega) (by omega) j3 j4 q g
          · exact viau (g.trans (q.trans_lt hu2))
        · have e1 : f c = f (c + 1) := le_antisymm hd (g.trans hca)
          have e2 : f a = f c := le_antisymm hca (hd.trans g)
          rcases hpl.ext c e1 with q | q
          · exact absurd (q (a + 1)) (not_le.mpr (by rw [← e2]; exact hup))
          · exact viau (by rw [e2]; exact (q t).trans_lt hu2)
    · -- `a` is at the top
      have hlt : f (a - 1) < f a := by
        refine lt_of_le_of_ne hpre ?_
        intro h
        have := hpl.two (a - 1) (by rw [sub_add_cancel]; exact h)
        rw [sub_add_cancel, show a - 1 + 2 = a + 1 by ring] at this
        exact this hup
      have top : ∀ j, f j ≤ f a := by
        rcases hpl.ext a hup with g | g
        · exact g
        · exact absurd (g (a - 1)) (not_le.mpr hlt)
      have hta : f t < f a := hu2.trans_le (top u)
      have hcc : f c = f a → False := by
        intro h
        have hcn : c ≠ a + n - 1 := by
          intro h'
          rw [h', pam] at h
          exact absurd h hlt.ne
        exact hu t c (a + n - 1) (a + n) t2 (by omega) (by omega) (by omega) (by rw [h]; exact hta)
          (by rw [h, pam]; exact hlt) (by rw [pam, pa]; exact hlt) (by rw [pa]; exact hta)
      have hd : f (c + 1) < f c := by
        rcases h2 with h | h
        · exact h
        · exact (hcc (le_antisymm (top c) (not_lt.mp h))).elim
      rcases lt_or_ge (f t) (f c) with r | r
      · have hcn : c + 1 ≠ a + n := by
          intro h
          rw [h, pa] at hd
          exact absurd (top c) (not_le.mpr hd)
        exact hu t c (c + 1) (a + n) t2 (by omega) (by omega) (by omega) r hd
          (by rw [pa]; exact hd.trans_le (top c)) (by rw [pa]; exact hta)
      · exact falls hd r hta
  · push Not at h2
    obtain ⟨h2, h3⟩ := h2
    exact lowL_between hac.le ⟨c, hac.le, le_rfl, h3⟩ ⟨c - 1, by omega, by omega, low' c hC (not_lt.mpr h2)⟩

/-- One step of the right search, when neighbours are at the same level only at the top. -/
theorem search_stepR {f : ℤ → K} {n : ℤ} (hper : ∀ i, f (i + n) = f i) (hpl : Plateaus f)
    (htop : ∀ i, f i = f (i + 1) → ∃ j, f j < f i) (hu : Unimodal f n)
    {a b c : ℤ} (hba : b ≤ a + n) (hac : a < c) (hcb : c < b) (hcn : c + 1 < a + n) (hA : ¬ Low f a) (hC : ¬ Low f c)
    (ht : ∃ t, a < t ∧ t < b ∧ Low f t) :
    if f (a + 1) < f a then
      if f c < f (c + 1) ∨ f a < f c then ∃ t, a < t ∧ t < c ∧ Low f t else ∃ t, c < t ∧ t < b ∧ Low f t
    else if ¬ f c < f (c + 1) ∨ ¬ f c < f a then ∃ t, c < t ∧ t < b ∧ Low f t else ∃ t, a < t ∧ t < c ∧ Low f t := by
  have tops : ∀ i, f i = f (i + 1) → ∀ j, f j ≤ f i := by
    intro i h
    rcases hpl.ext i h with g | g
    · exact g
    · obtain ⟨j, hj⟩ := htop i h
      exact absurd (g j) (not_le.mpr hj)
  have low' : ∀ i, ¬ Low f i → f i < f (i + 1) → f (i - 1) < f i := by
    intro i h1 h2
    by_contra h
    rcases lt_or_eq_of_le (not_lt.mp h) with g | g
    · exact h1 ⟨h2, g⟩
    · have := tops (i - 1) (by rw [sub_add_cancel]; exact g.symm) (i + 1)
      rw [← g] at this
      exact absurd this (not_le.mpr h2)
  have between : ∀ i j, a ≤ i → i ≤ c → f i < f a → a ≤ j → j ≤ c → f j < f c → ∃ t, a < t ∧ t < c ∧ Low f t := by
    intro i j i1 i2 i3 j1 j2 j3
    obtain ⟨m, m1, m2, m3, m4⟩ := argmin f a c hac.le
    have ma : m ≠ a := by rintro rfl; exact absurd i3 (not_lt.mpr (m3 i i1 i2))
    have mc : m ≠ c := by rintro rfl; exact absurd j3 (not_lt.mpr (m3 j j1 j2))
    refine ⟨m, by omega, by omega, lt_of_le_of_ne (m3 _ (by omega) (by omega)) ?_, m4 _ (by omega) (by omega)⟩
    intro h
    exact absurd (tops m h a) (not_le.mpr ((m3 i i1 i2).trans_lt i3))
  have right : (∀ t, a < t → t < c → Low f t → False) → ∃ t, c < t ∧ t < b ∧ Low f t := by
    intro h
    obtain ⟨t, t1, t2, t3⟩ := ht
    refine ⟨t, ?_, t2, t3⟩
    rcases lt_trichotomy t c with g | g | g
    · exact (h t t1 g t3).elim
    · rw [g] at t3; exact absurd t3 hC
    · exact g
  have pa : f (a + n) = f a := hper a
  have pa1 : f (a + n + 1) = f (a + 1) := by rw [show a + n + 1 = (a + 1) + n by ring, hper]
  have pam : f (a + n - 1) = f (a - 1) := by rw [show a + n - 1 = (a - 1) + n by ring, hper]
  split_ifs with hup h1 h2
  · rcases h1 with h1 | h1
    · exact between (a + 1) (c - 1) (by omega) (by omega) hup (by omega) (by omega) (low' c hC h1)
    · exact between (a + 1) a (by omega) (by omega) hup le_rfl hac.le h1
  · push Not at h1
    obtain ⟨h1, h2⟩ := h1
    apply right
    rintro t t1 t2 ⟨l1, l2⟩
    rcases lt_or_eq_of_le h1 with h1 | h1
    · have h3 : f (c + 1) < f a := h1.trans_le h2
      rcases le_or_gt (f a) (f t) with g | g
      · exact hu (a + 1) (t + 1) (c + 1) (a + n) (by omega) (by omega) (by omega) (by omega)
          ((hup.trans_le g).trans l1) ((h3.trans_le g).trans l1) (by rw [pa]; exact h3) (by rw [pa]; exact hup)
      · rcases lt_or_ge (f (c + 1)) (f (t + 1)) with q | q
        · exact hu t (t + 1) (c + 1) (a + n) (by omega) (by omega) (by omega) (by omega) l1 q (by rw [pa]; exact h3)
            (by rw [pa]; exact g)
        · exact hu t c (c + 1) (a + n) (by omega) (by omega) (by omega) (by omega) ((l1.trans_le q).trans h1) h1
            (by rw [pa]; exact h3) (by rw [pa]; exact g)
    · have top := tops c h1.symm
      have hta : f t < f a := (l1.trans_le (top (t + 1))).trans_le h2
      have hc2 : f (c + 2) < f (c + 1) := by
        refine lt_of_le_of_ne ?_ (hpl.two c h1.symm).symm
        rw [h1]; exact top _
      have hne : c + 2 ≠ a + n := by
        intro h
        rw [h, pa, h1] at hc2
        exact absurd h2 (not_le.mpr hc2)
      exact hu t (c + 1) (c + 2) (a + n) (by omega) (by omega) (by omega) (by omega)
        (by rw [h1]; exact l1.trans_le (top _)) hc2 (by rw [pa]; exact hc2.trans_le (by rw [h1]; exact h2)) (by rw [pa]; exact hta)
  · have hup := not_lt.mp hup
    apply right
    rintro t t1 t2 ⟨l1, l2⟩
    have ht2 : a + 1 < t := by
      rcases lt_or_eq_of_le (show a + 1 ≤ t by omega) with h | h
      · exact h
      · rw [← h, add_sub_cancel_right] at l2
        exact absurd l2 (not_lt.mpr hup)
    rcases lt_or_eq_of_le hup with hup' | hup'
    · obtain ⟨j, j1, j2, j3, j4⟩ : ∃ j, a < j ∧ j < t ∧ f a < f j ∧ f t < f j := by
        rcases le_total (f (a + 1)) (f (t - 1)) with h | h
        · exact ⟨t - 1, by omega, by omega, hup'.trans_le h, l2⟩
        · exact ⟨a + 1, by omega, by omega, hup', l2.trans_le h⟩
      by_cases hd : f c < f (c + 1)
      · have hca : f a ≤ f c := by
          rcases h2 with h | h
          · exact absurd hd h
          · exact not_lt.mp h
        rcases lt_or_ge (f t) (f (c + 1)) with q | q
        · exact hu a j t (c + 1) j1 j2 (by omega) (by omega) j3 j4 q (hca.trans_lt hd)
        · exact hu a j t (t + 1) j1 j2 (by omega) (by omega) j3 j4 l1 ((hca.trans_lt hd).trans (q.trans_lt l1))
      · rcases lt_or_eq_of_le (not_lt.mp hd) with hd | hd
        · rcases lt_or_ge (f a) (f (t + 1)) with q | q
          · exact hu a j t (t + 1) j1 j2 (by omega) (by omega) j3 j4 l1 q
          · rcases lt_or_ge (f t) (f c) with r | r
            · rcases le_or_gt (f (a + 1)) (f (c + 1)) with s | s
              · exact hu a j t c j1 j2 (by omega) (by omega) j3 j4 r (hup'.trans (s.trans_lt hd))
              · exact hu t c (c + 1) (a + n + 1) (by omega) (by omega) (by omega) (by omega) r hd (by rw [pa1]; exact s)
                  (by rw [pa1]; exact (l1.trans_le q).trans hup')
            · have : t + 1 ≠ c := by
                rintro rfl
                exact absurd r (not_le.mpr l1)
              exact hu t (t + 1) c (a + n) (by omega) (by omega) (by omega) (by omega) l1 (r.trans_lt l1)
                (by rw [pa]; exact (r.trans_lt l1).trans_le q) (by rw [pa]; exact l1.trans_le q)
        · have top := tops c hd.symm
          exact hu a j t c j1 j2 (by omega) (by omega) j3 j4 (l1.trans_le (top _)) (hup'.trans_le (top _))
    · have top := tops a hup'
      have hlt : f (a - 1) < f a := by
        refine lt_of_le_of_ne (top _) ?_
        intro h
        have := hpl.two (a - 1) (by rw [sub_add_cancel]; exact h)
        rw [sub_add_cancel, show a - 1 + 2 = a + 1 by ring] at this
        exact this hup'
      have hta : f t < f a := l1.trans_le (top _)
      rcases lt_or_eq_of_le (top c) with hc | hc
      · have hd : f (c + 1) < f c := by
          rcases h2 with h | h
          · refine lt_of_le_of_ne (not_lt.mp h) ?_
            intro h'
            exact absurd (tops c h'.symm a) (not_le.mpr hc)
          · exact absurd hc h
        rcases lt_or_ge (f t) (f c) with r | r
        · exact hu t c (c + 1) (a + n) t2 (by omega) (by omega) (by omega) r hd
            (by rw [pa]; exact hd.trans hc) (by rw [pa]; exact hta)
        · have : t + 1 ≠ c := by
            rintro rfl
            exact absurd r (not_le.mpr l1)
          exact hu t (t + 1) c (a + n) (by omega) (by omega) (by omega) (by omega) l1 (r.trans_lt l1)
            (by rw [pa]; exact hc) (by rw [pa]; exact hta)
      · have hcn : c ≠ a + n - 1 := by
          intro h'
          rw [h', pam] at hc
          exact absurd hc hlt.ne
        exact hu t c (a + n - 1) (a + n) t2 (by omega) (by omega) (by omega) (by rw [hc]; exact hta)
          (by rw [hc, pam]; exact hlt) (by rw [pam, pa]; exact hlt) (by rw [pa]; exact hta)
  · push Not at h2
    obtain ⟨h2, h3⟩ := h2
    exact between c (c - 1) (by omega) le_rfl h3 (by omega) (by omega) (low' c hC h2)

/-- A low point is lowest of all. -/
theorem low_least {f : ℤ → K} {n : ℤ} (hn : 0 < n) (hper : ∀ i, f (i + n) = f i) (hu : Unimodal f n) {c : ℤ} (hc : Low f c) (i : ℤ) :
    f c ≤ f i := by
  by_contra h
  push Not at h
  have per : ∀ (k : ℕ) (i : ℤ), f (i + k * n) = f i := by
    intro k
    induction k with
    | zero => intro i; simp
    | succ k ih => intro i; rw [← ih i, ← hper (i + k * n)]; congr 1; push_cast; ring
  have perz : ∀ k i : ℤ, f (i + k * n) = f i := by
    intro k i
    rcases le_total 0 k with h | h
    · have := per k.toNat i; rwa [Int.toNat_of_nonneg h] at this
    · have := per (-k).toNat (i + k * n)
      rw [Int.toNat_of_nonneg (by omega)] at this
      rw [← this]; congr 1; ring
  -- shift `i` into `(c - n, c)`
  obtain ⟨m, m1, m2, m3⟩ : ∃ m, c - n ≤ m ∧ m < c ∧ f m = f i := by
    refine ⟨c - n + (i - c) % n, ?_, ?_, ?_⟩
    · have := Int.emod_nonneg (i - c) hn.ne'; omega
    · have := Int.emod_lt_of_pos (i - c) hn; omega
    · have : c - n + (i - c) % n = i + (-((i - c) / n) - 1) * n := by
        have := Int.emod_add_mul_ediv (i - c) n
        linear_combination this
      rw [this, perz]
  rw [← m3] at h
  have hm : m ≠ c - n := by
    rintro rfl
    have := perz 1 (c - n)
    rw [show c - n + 1 * n = c by ring] at this
    rw [this] at h; exact lt_irrefl _ h
  have hm1 : m ≠ c - 1 := by
    rintro rfl
    exact absurd h (not_lt.mpr hc.2.le)
  exact hu m (c - 1) c (c + 1) (by omega) (by omega) (by omega) (by omega) (h.trans hc.2) hc.2 hc.1 (h.trans hc.1)

theorem lowL_least {f : ℤ → K} {n : ℤ} (hn : 0 < n) (hper : ∀ i, f (i + n) = f i) (hpl : Plateaus f) (hu : Unimodal f n) {c : ℤ}
    (hc : LowL f c) (i : ℤ) : f c ≤ f i := by
  rcases lt_or_eq_of_le hc.1 with h | h
  · exact low_least hn hper hu ⟨h, hc.2⟩ i
  · rcases hpl.ext c h with g | g
    · exact absurd (g (c - 1)) (not_le.mpr hc.2)
    · exact g i

/-- There is a low point in a period. -/
theorem exists_lowL {f : ℤ → K} {n : ℤ} (hn : 1 < n) (hper : ∀ i, f (i + n) = f i) (hpl : Plateaus f)
    (h : ¬ LowL f (-1)) : ∃ t, -1 < t ∧ t < n - 1 ∧ LowL f t := by
  have p1 : f (n - 1) = f (-1) := by rw [← hper (-1)]; congr 1; ring
  have p2 : f (n - 2) = f (-1 - 1) := by rw [← hper (-1 - 1)]; congr 1; ring
  by_cases hi : ∃ i, -1 ≤ i ∧ i ≤ n - 1 ∧ f i < f (-1)
  · obtain ⟨i, i1, i2, i3⟩ := hi
    exact lowL_between (by omega) ⟨i, i1, i2, i3⟩ ⟨-1, le_rfl, by omega, p1.ge⟩
  · push Not at hi
    have g1 : f (-1 - 1) ≤ f (-1) := by
      by_contra hc
      exact h ⟨hi _ (by omega) (by omega), not_le.mp hc⟩
    have g2 : f (n - 2) = f (n - 1) := by
      rw [p1, p2]; exact le_antisymm g1 (by rw [← p2]; exact hi _ (by omega) (by omega))
    refine ⟨n - 2, by omega, by omega, ?_, ?_⟩
    · rw [show n - 2 + 1 = n - 1 by ring, g2]
    · rw [show n - 2 - 1 = n - 3 by ring]
      by_cases hn3 : n = 2
      · subst hn3
        exfalso
        have := hpl.two (-2) (by
          have e : f (-2) = f 0 := by rw [← hper (-2)]; norm_num
          norm_num at g2 ⊢
          rw [e, g2, ← hper (-1)]; norm_num)
        apply this
        have e : f 0 = f (-2) := by rw [← hper (-2)]; norm_num
        have e1 : f 1 = f (-1) := by rw [← hper (-1)]; norm_num
        norm_num at g2 ⊢
        rw [g2, e1]
      · refine lt_of_le_of_ne ?_ ?_
        · rw [g2, p1]; exact hi _ (by omega) (by omega)
        · intro e
          refine hpl.two (n - 3) (by rw [← e]; congr 1; ring) ?_
          rw [show n - 3 + 1 = n - 2 by ring, show n - 3 + 2 = n - 1 by ring, g2]

theorem exists_low {f : ℤ → K} {n : ℤ} (hn : 1 < n) (hper : ∀ i, f (i + n) = f i) (hpl : Plateaus f)
    (htop : ∀ i, f i = f (i + 1) → ∃ j, f j < f i) (h : ¬ Low f (-1)) : ∃ t, -1 < t ∧ t < n - 1 ∧ Low f t := by
  have p1 : f (n - 1) = f (-1) := by rw [← hper (-1)]; congr 1; ring
  have p2 : f (n - 2) = f (-1 - 1) := by rw [← hper (-1 - 1)]; congr 1; ring
  have tops : ∀ i, f i = f (i + 1) → ∀ j, f j ≤ f i := by
    intro i h
    rcases hpl.ext i h with g | g
    · exact g
    · obtain ⟨j, hj⟩ := htop i h
      exact absurd (g j) (not_le.mpr hj)
  have hL : ¬ LowL f (-1) := by
    rintro ⟨l1, l2⟩
    rcases lt_or_eq_of_le l1 with g | g
    · exact h ⟨g, l2⟩
    · exact absurd (tops _ g (-1 - 1)) (not_le.mpr l2)
  obtain ⟨t, t1, t2, l1, l2⟩ := exists_lowL hn hper hpl hL
  refine ⟨t, t1, t2, lt_of_le_of_ne l1 ?_, l2⟩
  intro g
  exact absurd (tops _ g (t - 1)) (not_le.mpr l2)

end Planar
