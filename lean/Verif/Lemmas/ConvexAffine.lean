import Verif.Lemmas.Split
import Mathlib.Data.List.TakeWhile
/- Convexity does not depend on the direction in which the boundary is swept. -/
set_option linter.unusedSectionVars false
namespace Planar
open Spec Polygon
variable {K : Type} [Field K] [LinearOrder K] [IsStrictOrderedRing K]

/-- Not to the left, and not downwards if vertical. -/
def LexNN (v : Vec2 K) : Prop := 0 < v.x ∨ (v.x = 0 ∧ 0 ≤ v.y)

theorem lexLe_nn {a b : Vec2 K} : LexLe a b ↔ LexNN (b - a) := by
  simp only [LexLe, LexNN, Vec2.sub_x, Vec2.sub_y]
  constructor
  · rintro (h | ⟨h, h'⟩)
    · exact .inl (by linarith)
    · exact .inr ⟨by linarith, by linarith⟩
  · rintro (h | ⟨h, h'⟩)
    · exact .inl (by linarith)
    · exact .inr ⟨by linarith, by linarith⟩

theorem lexNN_x {v : Vec2 K} (h : LexNN v) : 0 ≤ v.x := by
  rcases h with h | h
  · exact h.le
  · exact h.1.ge

theorem cone {u d v : Vec2 K} (hu : LexNN u) (hd : LexNN d) (hv : LexNN v) (h1 : 0 < u.cross d) (h2 : 0 < d.cross v) :
    0 < u.cross v := by
  simp only [Vec2.cross] at *
  have ux := lexNN_x hu
  have vx := lexNN_x hv
  rcases hd with hd | ⟨hd, hd'⟩
  · have key : (u.x * v.y - u.y * v.x) * d.x = (d.x * v.y - d.y * v.x) * u.x + (u.x * d.y - u.y * d.x) * v.x := by ring
    have : 0 < (u.x * v.y - u.y * v.x) * d.x := by
      rw [key]
      rcases eq_or_lt_of_le ux with h | h
      · rw [← h] at h1
        have uy : 0 ≤ u.y := by
          rcases hu with hu | hu
          · linarith
          · exact hu.2
        have := mul_nonneg uy hd.le
        linarith
      · have a1 := mul_pos h2 h
        have a2 := mul_nonneg h1.le vx
        linarith
    exact (pos_iff_pos_of_mul_pos this).mpr hd
  · rw [hd] at h2
    have := mul_nonneg hd' vx
    linarith

/-- The edge vectors of a half of a boundary with everything on the left turn to the left, on the right to the right. -/
theorem turn_left {u v d : Vec2 K} (hu : LexNN u) (hd : LexNN d) (hv : LexNN v) (h1 : 0 ≤ u.cross (d + v))
    (h2 : 0 ≤ v.cross (-d - u)) : 0 ≤ u.cross v := by
  by_contra hc
  push Not at hc
  simp only [Vec2.cross, Vec2.add_x, Vec2.add_y, Vec2.sub_x, Vec2.sub_y, Vec2.neg_x, Vec2.neg_y] at *
  have := cone hu hd hv (by simp only [Vec2.cross]; linarith) (by simp only [Vec2.cross]; linarith)
  simp only [Vec2.cross] at this
  linarith

theorem turn_right {u v d : Vec2 K} (hu : LexNN u) (hd : LexNN d) (hv : LexNN v) (h1 : u.cross (d + v) ≤ 0)
    (h2 : v.cross (-d - u) ≤ 0) : 0 ≤ v.cross u := by
  by_contra hc
  push Not at hc
  simp only [Vec2.cross, Vec2.add_x, Vec2.add_y, Vec2.sub_x, Vec2.sub_y, Vec2.neg_x, Vec2.neg_y] at *
  have := cone hv hd hu (by simp only [Vec2.cross]; linarith) (by simp only [Vec2.cross]; linarith)
  simp only [Vec2.cross] at this
  linarith

/-- A linear order of the directions: closed under sums and positive multiples, total, strict. -/
structure DirOrder (L : Vec2 K → Prop) : Prop where
  add : ∀ u v, L u → L v → L (u + v)
  smul : ∀ (k : K) u, 0 ≤ k → L u → L ⟨k * u.x, k * u.y⟩
  total : ∀ u, L u ∨ L (-u)
  anti : ∀ u, L u → L (-u) → u.x = 0 ∧ u.y = 0

theorem DirOrder.zero {L : Vec2 K → Prop} (h : DirOrder L) {u : Vec2 K} (hx : u.x = 0) (hy : u.y = 0) : L u := by
  have := h.smul 0 u (le_refl _)
  rcases h.total u with h' | h'
  · exact h'
  · have e : u = -u := by apply Vec2.ext <;> simp [hx, hy]
    rw [e]; exact h'

theorem DirOrder.scale {L : Vec2 K → Prop} (h : DirOrder L) {k : K} (hk : 0 < k) {u : Vec2 K} (hu : L ⟨k * u.x, k * u.y⟩) : L u := by
  have := h.smul k⁻¹ _ (inv_nonneg.mpr hk.le) hu
  have e : (⟨k⁻¹ * (k * u.x), k⁻¹ * (k * u.y)⟩ : Vec2 K) = u := by
    apply Vec2.ext
    · simp only; field_simp
    · simp only; field_simp
  simpa only [e] using this

theorem mono_up {L : Vec2 K → Prop} (h : DirOrder L) (hw : L ⟨0, 1⟩) {u v : Vec2 K} (hu : LexNN u) (hv : LexNN v)
    (hc : 0 ≤ u.cross v) (hne : ¬ (u.x = 0 ∧ u.y = 0)) (hL : L u) : L v := by
  simp only [Vec2.cross] at hc
  rcases hu with hu | ⟨hu, hu'⟩
  · apply h.scale hu
    have := h.add _ _ (h.smul v.x u (lexNN_x hv) hL) (h.smul _ _ hc hw)
    have e : (⟨u.x * v.x, u.x * v.y⟩ : Vec2 K) = ⟨v.x * u.x, v.x * u.y⟩ + ⟨(u.x * v.y - u.y * v.x) * 0, (u.x * v.y - u.y * v.x) * 1⟩ := by
      apply Vec2.ext
      · simp only [Vec2.add_x]; ring
      · simp only [Vec2.add_y]; ring
    rw [e]; exact this
  · have hy : 0 < u.y := lt_of_le_of_ne hu' (fun e => hne ⟨hu, e.symm⟩)
    rw [hu] at hc
    have vx : v.x = 0 := by
      have := lexNN_x hv
      by_contra hcon
      have : 0 < v.x := lt_of_le_of_ne this (Ne.symm hcon)
      have := mul_pos hy this
      linarith
    have vy : 0 ≤ v.y := by
      rcases hv with hv | hv
      · linarith
      · exact hv.2
    have := h.smul v.y _ vy hw
    have e : v = ⟨v.y * 0, v.y * 1⟩ := by apply Vec2.ext <;> simp [vx]
    rw [e]; exact this

theorem mono_dn {L : Vec2 K → Prop} (h : DirOrder L) (hw : L ⟨0, -1⟩) {u v : Vec2 K} (hu : LexNN u) (hv : LexNN v)
    (hc : 0 ≤ u.cross v) (hne : ¬ (v.x = 0 ∧ v.y = 0)) (hL : L v) : L u := by
  simp only [Vec2.cross] at hc
  rcases hv with hv | ⟨hv, hv'⟩
  · apply h.scale hv
    have := h.add _ _ (h.smul u.x v (lexNN_x hu) hL) (h.smul _ _ hc hw)
    have e : (⟨v.x * u.x, v.x * u.y⟩ : Vec2 K) = ⟨u.x * v.x, u.x * v.y⟩ + ⟨(u.x * v.y - u.y * v.x) * 0, (u.x * v.y - u.y * v.x) * -1⟩ := by
      apply Vec2.ext
      · simp only [Vec2.add_x]; ring
      · simp only [Vec2.add_y]; ring
    rw [e]; exact this
  · have hy : 0 < v.y := lt_of_le_of_ne hv' (fun e => hne ⟨hv, e.symm⟩)
    exfalso
    have h1 : L ⟨0, 1⟩ := by
      apply h.scale hy
      have e : (⟨v.y * 0, v.y * 1⟩ : Vec2 K) = v := by apply Vec2.ext <;> simp [hv]
      simp only [e]; exact hL
    have h2 := h.anti ⟨0, 1⟩ h1 (by
      have e : (-⟨0, 1⟩ : Vec2 K) = ⟨0, -1⟩ := by apply Vec2.ext <;> simp
      rw [e]; exact hw)
    exact one_ne_zero h2.2

/-- Splitting a list at the first element without `Q`. -/
theorem split_at {α : Type} {P Q : α → Prop} {l : List α} (h : l.Pairwise fun e f => ¬ Q e → P f) (hPQ : ∀ e, P e ∨ Q e) :
    ∃ a b, l = a ++ b ∧ (∀ e ∈ a, Q e) ∧ (∀ e ∈ b, P e) := by
  classical
  refine ⟨l.takeWhile (fun e => decide (Q e)), l.dropWhile (fun e => decide (Q e)), (List.takeWhile_append_dropWhile).symm, ?_, ?_⟩
  · intro e he
    simpa using List.mem_takeWhile_imp he
  · intro e he
    cases hd : l.dropWhile (fun e => decide (Q e)) with
    | nil => rw [hd] at he; simp at he
    | cons x t =>
      have hx : ¬ Q x := by
        have := List.head_dropWhile_not (fun e => decide (Q e)) (l := l) (by rw [hd]; simp)
        simpa [hd] using this
      have hs : (x :: t).Pairwise fun e f => ¬ Q e → P f := by
        rw [← hd]; exact h.sublist (List.dropWhile_sublist _)
      rw [hd] at he
      rcases List.mem_cons.mp he with rfl | he
      · exact (hPQ e).resolve_right hx
      · exact (List.pairwise_cons.mp hs).1 e he hx

/-- The boundary of a convex polygon is traversed once, seen along any direction order. -/
theorem once_along {vs : List (Vec2 K)} (hc : Convex vs) {L : Vec2 K → Prop} (h : DirOrder L) :
    ∃ there back : List (Vec2 K × Vec2 K), (edges vs).IsRotated (there ++ back) ∧
      (∀ e ∈ there, L (e.2 - e.1)) ∧ (∀ e ∈ back, L (e.1 - e.2)) := by
  obtain ⟨ho, there, back, hr, ht, hb⟩ := hc
  by_cases hvs : vs = []
  · subst hvs
    exact ⟨[], [], by simp [edges], by simp, by simp⟩
  obtain ⟨z, hz⟩ := path_rotate (edges_path hvs) hr
  obtain ⟨y, hz1, hz2⟩ := isPath_append.mp hz
  have p1 := (path_lex hz1 ht).2
  have p2 := path_lex' hz2 hb
  have neg : ∀ a b : Vec2 K, -(a - b) = b - a := fun a b => by apply Vec2.ext <;> simp
  have tot : ∀ e : Vec2 K × Vec2 K, L (e.2 - e.1) ∨ L (e.1 - e.2) := fun e => by
    have := h.total (e.2 - e.1); rwa [neg] at this
  have mem1 : ∀ e ∈ there, e ∈ edges vs := fun e he => hr.mem_iff.mpr (List.mem_append_left _ he)
  have mem2 : ∀ e ∈ back, e ∈ edges vs := fun e he => hr.mem_iff.mpr (List.mem_append_right _ he)
  -- the turning of both halves
  have turn1 : (∀ e ∈ edges vs, ∀ v ∈ vs, 0 ≤ side e.1 e.2 v) →
      there.Pairwise fun e f => 0 ≤ (e.2 - e.1).cross (f.2 - f.1) := by
    intro hs
    refine p1.imp_of_mem fun {e f} he hf hl => ?_
    have e1 := hs e (mem1 e he) _ (edges_mem (mem1 f hf)).2
    have e2 := hs f (mem1 f hf) _ (edges_mem (mem1 e he)).1
    refine turn_left (lexLe_nn.mp (ht e he)) (lexLe_nn.mp hl) (lexLe_nn.mp (ht f hf)) ?_ ?_
    · simp only [side, Vec2.cross, Vec2.add_x, Vec2.add_y, Vec2.sub_x, Vec2.sub_y] at *; linarith
    · simp only [side, Vec2.cross, Vec2.sub_x, Vec2.sub_y, Vec2.neg_x, Vec2.neg_y] at *; linarith
  have turn1' : (∀ e ∈ edges vs, ∀ v ∈ vs, side e.1 e.2 v ≤ 0) →
      there.Pairwise fun e f => 0 ≤ (f.2 - f.1).cross (e.2 - e.1) := by
    intro hs
    refine p1.imp_of_mem fun {e f} he hf hl => ?_
    have e1 := hs e (mem1 e he) _ (edges_mem (mem1 f hf)).2
    have e2 := hs f (mem1 f hf) _ (edges_mem (mem1 e he)).1
    refine turn_right (lexLe_nn.mp (ht e he)) (lexLe_nn.mp hl) (lexLe_nn.mp (ht f hf)) ?_ ?_
    · simp only [side, Vec2.cross, Vec2.add_x, Vec2.add_y, Vec2.sub_x, Vec2.sub_y] at *; linarith
    · simp only [side, Vec2.cross, Vec2.sub_x, Vec2.sub_y, Vec2.neg_x, Vec2.neg_y] at *; linarith
  have turn2 : (∀ e ∈ edges vs, ∀ v ∈ vs, 0 ≤ side e.1 e.2 v) →
      back.Pairwise fun e f => 0 ≤ (e.1 - e.2).cross (f.1 - f.2) := by
    intro hs
    refine p2.imp_of_mem fun {e f} he hf hl => ?_
    have e1 := hs e (mem2 e he) _ (edges_mem (mem2 f hf)).2
    have e2 := hs f (mem2 f hf) _ (edges_mem (mem2 e he)).1
    refine turn_left (d := e.2 - f.1) (lexLe_nn.mp (hb e he)) (lexLe_nn.mp hl) (lexLe_nn.mp (hb f hf)) ?_ ?_
    · simp only [side, Vec2.cross, Vec2.add_x, Vec2.add_y, Vec2.sub_x, Vec2.sub_y] at *; linarith
    · simp only [side, Vec2.cross, Vec2.sub_x, Vec2.sub_y, Vec2.neg_x, Vec2.neg_y] at *; linarith
  have turn2' : (∀ e ∈ edges vs, ∀ v ∈ vs, side e.1 e.2 v ≤ 0) →
      back.Pairwise fun e f => 0 ≤ (f.1 - f.2).cross (e.1 - e.2) := by
    intro hs
    refine p2.imp_of_mem fun {e f} he hf hl => ?_
    have e1 := hs e (mem2 e he) _ (edges_mem (mem2 f hf)).2
    have e2 := hs f (mem2 f hf) _ (edges_mem (mem2 e he)).1
    refine turn_right (d := e.2 - f.1) (lexLe_nn.mp (hb e he)) (lexLe_nn.mp hl) (lexLe_nn.mp (hb f hf)) ?_ ?_
    · simp only [side, Vec2.cross, Vec2.add_x, Vec2.add_y, Vec2.sub_x, Vec2.sub_y] at *; linarith
    · simp only [side, Vec2.cross, Vec2.sub_x, Vec2.sub_y, Vec2.neg_x, Vec2.neg_y] at *; linarith
  -- monotony along a half
  have M1 : ∀ {u v : Vec2 K}, LexNN u → LexNN v → 0 ≤ u.cross v → L ⟨0, 1⟩ → ¬ L (-u) → L v := by
    intro u v hu hv hcr hw hn
    exact mono_up h hw hu hv hcr (fun hz => hn (h.zero (by simp [hz.1]) (by simp [hz.2]))) ((h.total u).resolve_right hn)
  have M2 : ∀ {u v : Vec2 K}, LexNN u → LexNN v → 0 ≤ u.cross v → L ⟨0, -1⟩ → ¬ L u → L (-v) := by
    intro u v hu hv hcr hw hn
    by_contra hc
    have hv' := (h.total v).resolve_right hc
    exact hn (mono_dn h hw hu hv hcr (fun hz => hc (h.zero (by simp [hz.1]) (by simp [hz.2]))) hv')
  have M3 : ∀ {u v : Vec2 K}, LexNN u → LexNN v → 0 ≤ v.cross u → L ⟨0, 1⟩ → ¬ L u → L (-v) := by
    intro u v hu hv hcr hw hn
    by_contra hc
    exact hn (M1 hv hu hcr hw hc)
  have M4 : ∀ {u v : Vec2 K}, LexNN u → LexNN v → 0 ≤ v.cross u → L ⟨0, -1⟩ → ¬ L (-u) → L v := by
    intro u v hu hv hcr hw hn
    by_contra hc
    exact hn (M2 hv hu hcr hw hc)
  have fin1 : there.Pairwise (fun e f => ¬ L (e.1 - e.2) → L (f.2 - f.1)) →
      back.Pairwise (fun e f => ¬ L (e.2 - e.1) → L (f.1 - f.2)) → ∃ there back : List (Vec2 K × Vec2 K),
      (edges vs).IsRotated (there ++ back) ∧ (∀ e ∈ there, L (e.2 - e.1)) ∧ (∀ e ∈ back, L (e.1 - e.2)) := by
    intro h1 h2
    obtain ⟨a, b, e1, ha, hb'⟩ := split_at (P := fun e : Vec2 K × Vec2 K => L (e.2 - e.1)) h1 tot
    obtain ⟨c, d, e2, hc', hd⟩ := split_at (P := fun e : Vec2 K × Vec2 K => L (e.1 - e.2)) h2 (fun e => (tot e).symm)
    refine ⟨b ++ c, d ++ a, ?_, ?_, ?_⟩
    · refine hr.trans ?_
      rw [e1, e2]
      have : a ++ b ++ (c ++ d) = a ++ (b ++ c ++ d) := by simp
      rw [this]
      have : b ++ c ++ (d ++ a) = (b ++ c ++ d) ++ a := by simp
      rw [this]
      exact List.isRotated_append
    · intro e he
      rcases List.mem_append.mp he with he | he
      · exact hb' e he
      · exact hc' e he
    · intro e he
      rcases List.mem_append.mp he with he | he
      · exact hd e he
      · exact ha e he
  have fin2 : there.Pairwise (fun e f => ¬ L (e.2 - e.1) → L (f.1 - f.2)) →
      back.Pairwise (fun e f => ¬ L (e.1 - e.2) → L (f.2 - f.1)) → ∃ there back : List (Vec2 K × Vec2 K),
      (edges vs).IsRotated (there ++ back) ∧ (∀ e ∈ there, L (e.2 - e.1)) ∧ (∀ e ∈ back, L (e.1 - e.2)) := by
    intro h1 h2
    obtain ⟨a, b, e1, ha, hb'⟩ := split_at (P := fun e : Vec2 K × Vec2 K => L (e.1 - e.2)) h1 (fun e => (tot e).symm)
    obtain ⟨c, d, e2, hc', hd⟩ := split_at (P := fun e : Vec2 K × Vec2 K => L (e.2 - e.1)) h2 tot
    refine ⟨d ++ a, b ++ c, ?_, ?_, ?_⟩
    · refine hr.trans ?_
      rw [e1, e2]
      have : a ++ b ++ (c ++ d) = (a ++ b ++ c) ++ d := by simp
      rw [this]
      have : d ++ a ++ (b ++ c) = d ++ (a ++ b ++ c) := by simp
      rw [this]
      exact List.isRotated_append
    · intro e he
      rcases List.mem_append.mp he with he | he
      · exact hd e he
      · exact ha e he
    · intro e he
      rcases List.mem_append.mp he with he | he
      · exact hb' e he
      · exact hc' e he
  have cases : L ⟨0, 1⟩ ∨ L ⟨0, -1⟩ := by
    have := h.total ⟨0, 1⟩
    have e : (-⟨0, 1⟩ : Vec2 K) = ⟨0, -1⟩ := by apply Vec2.ext <;> simp
    rwa [e] at this
  have nt : ∀ e ∈ there, LexNN (e.2 - e.1) := fun e he => lexLe_nn.mp (ht e he)
  have nb : ∀ e ∈ back, LexNN (e.1 - e.2) := fun e he => lexLe_nn.mp (hb e he)
  rcases ho with ho | ho <;> rcases cases with hw | hw
  · exact fin1 ((turn1 ho).imp_of_mem fun {e f} he hf hcr hn => M1 (nt e he) (nt f hf) hcr hw (by rwa [neg]))
      ((turn2 ho).imp_of_mem fun {e f} he hf hcr hn => M1 (nb e he) (nb f hf) hcr hw (by rwa [neg]))
  · exact fin2 ((turn1 ho).imp_of_mem fun {e f} he hf hcr hn => by
        have := M2 (nt e he) (nt f hf) hcr hw hn; rwa [neg] at this)
      ((turn2 ho).imp_of_mem fun {e f} he hf hcr hn => by
        have := M2 (nb e he) (nb f hf) hcr hw hn; rwa [neg] at this)
  · exact fin2 ((turn1' ho).imp_of_mem fun {e f} he hf hcr hn => by
        have := M3 (nt e he) (nt f hf) hcr hw hn; rwa [neg] at this)
      ((turn2' ho).imp_of_mem fun {e f} he hf hcr hn => by
        have := M3 (nb e he) (nb f hf) hcr hw hn; rwa [neg] at this)
  · exact fin1 ((turn1' ho).imp_of_mem fun {e f} he hf hcr hn => M4 (nt e he) (nt f hf) hcr hw (by rwa [neg]))
      ((turn2' ho).imp_of_mem fun {e f} he hf hcr hn => M4 (nb e he) (nb f hf) hcr hw (by rwa [neg]))

end Planar
