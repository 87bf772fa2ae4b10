import Verif.Lemmas.Rounded
import Verif.Lemmas.Trigram
import Verif.Spec.Corners
/- Property C55: equality of polygons. -/
set_option linter.unusedSectionVars false
namespace Planar
open Spec
open Polygon
variable {K : Type} [LinearOrder K] [Add K] [Sub K] [Mul K] [Div K] [Neg K] [Zero K] [One K] [RoundedArith K]

theorem flip3_flip3 (t : Tri K) : flip3 (flip3 t) = t := rfl

theorem map_flip3_perm {S T : List (Tri K)} (h : S.Perm (T.map flip3)) : (S.map flip3).Perm T := by
  have := h.map flip3
  rwa [List.map_map, show (flip3 ∘ flip3 : Tri K → Tri K) = id from rfl, List.map_id] at this

/-- **C55** `==` is reflexive, symmetric and transitive, and `!=` is its negation. -/
theorem C55_equivalence (s o t : Polygon K) :
    s.eq s = true ∧ (s.eq o = true → o.eq s = true) ∧ (s.eq o = true → o.eq t = true → s.eq t = true) ∧
    (s.ne o = true ↔ s.eq o = false) := by
  refine ⟨eq_of_verts rfl, ?_, ?_, ?_⟩
  · rw [eq_iff_tris, eq_iff_tris]
    rintro ⟨hl, h | h⟩
    · exact ⟨hl.symm, Or.inl h.symm⟩
    · exact ⟨hl.symm, Or.inr (map_flip3_perm h).symm⟩
  · rw [eq_iff_tris, eq_iff_tris, eq_iff_tris]
    rintro ⟨hl, h⟩ ⟨hl', h'⟩
    refine ⟨hl.trans hl', ?_⟩
    rcases h with h | h <;> rcases h' with h' | h'
    · exact Or.inl (h.trans h')
    · exact Or.inr (h.trans h')
    · exact Or.inr (h.trans (h'.map flip3))
    · exact Or.inl (h.trans (map_flip3_perm h'))
  · simp [Polygon.ne]

/-- The vertex at position `i`, counted around the polygon. -/
def atZ (vs : List (Vec2 K)) (i : ℤ) : Vec2 K := nth vs (i % vs.length)

theorem atZ_congr {vs : List (Vec2 K)} {i j : ℤ} (h : i ≡ j [ZMOD vs.length]) : atZ vs i = atZ vs j := by
  unfold atZ; rw [h]

theorem atZ_lt (vs : List (Vec2 K)) (i : ℕ) (h : i < vs.length) : atZ vs i = vs[i] := by
  unfold atZ
  rw [Int.emod_eq_of_lt (by omega) (by omega)]
  exact nth_ofNat vs i h

theorem atZ_nat (vs : List (Vec2 K)) (h : 0 < vs.length) (i : ℤ) : ∃ k : ℕ, ∃ hk : k < vs.length, i ≡ k [ZMOD vs.length] ∧ atZ vs i = vs[k] := by
  have h1 := Int.emod_nonneg i (show (vs.length : ℤ) ≠ 0 by omega)
  have h2 := Int.emod_lt_of_pos i (show (0 : ℤ) < vs.length by omega)
  refine ⟨(i % vs.length).toNat, by omega, ?_, ?_⟩
  · rw [Int.toNat_of_nonneg h1]; exact (Int.mod_modEq i _).symm
  · unfold atZ
    rw [← nth_ofNat vs _ (by omega), Int.toNat_of_nonneg h1]

theorem nth_atZ (vs : List (Vec2 K)) (i : ℤ) (h1 : -(vs.length : ℤ) ≤ i) (h2 : i < vs.length) : nth vs i = atZ vs i := by
  by_cases h0 : 0 ≤ i
  · unfold atZ; rw [Int.emod_eq_of_lt h0 h2]
  · have e : i % (vs.length : ℤ) = i + vs.length := by
      rw [← Int.add_emod_right i, Int.emod_eq_of_lt (by omega) (by omega)]
    unfold atZ
    rw [e]
    have a := nth_neg vs (-i).toNat (by omega) (by omega)
    have b := nth_ofNat vs (vs.length - (-i).toNat) (by omega)
    rw [show (-((-i).toNat : ℤ)) = i by omega] at a
    rw [show ((vs.length - (-i).toNat : ℕ) : ℤ) = i + vs.length by omega] at b
    rw [a, b]

/-- The trigrams, by positions. -/
theorem tris_at (vs : List (Vec2 K)) (h : 2 ≤ vs.length) :
    tris vs = (List.range vs.length).map fun (i : ℕ) => (atZ vs ((i : ℤ) - 2), atZ vs ((i : ℤ) - 1), atZ vs i) := by
  unfold tris
  apply List.map_congr_left
  intro i hi
  rw [List.mem_range] at hi
  rw [nth_atZ _ _ (by omega) (by omega), nth_atZ _ _ (by omega) (by omega), nth_atZ _ _ (by omega) (by omega)]

theorem atZ_rotate (vs : List (Vec2 K)) (h : 0 < vs.length) (k : ℕ) (i : ℤ) : atZ (vs.rotate k) i = atZ vs (i + k) := by
  obtain ⟨m, hm, hc, e⟩ := atZ_nat (vs.rotate k) (by simpa using h) i
  rw [List.length_rotate] at hm hc
  rw [e, List.getElem_rotate, ← atZ_lt vs _ (Nat.mod_lt _ h)]
  apply atZ_congr
  rw [Int.natCast_mod]
  refine (Int.mod_modEq _ _).trans ?_
  push_cast
  exact (hc.symm).add_right _

theorem atZ_reverse (vs : List (Vec2 K)) (h : 0 < vs.length) (i : ℤ) : atZ vs.reverse i = atZ vs (-1 - i) := by
  obtain ⟨m, hm, hc, e⟩ := atZ_nat vs.reverse (by simpa using h) i
  rw [List.length_reverse] at hm hc
  rw [e, List.getElem_reverse, ← atZ_lt vs _ (by omega)]
  apply atZ_congr
  have : ((vs.length - 1 - m : ℕ) : ℤ) = -1 - m + vs.length := by omega
  rw [this]
  refine (Int.add_modEq_right).trans ?_
  exact Int.ModEq.sub_left _ hc.symm

/-- A reindexing of the positions that is a bijection modulo `n`. -/
theorem range_map_perm {α : Type} (n : ℕ) (hn : 0 < n) (F : ℤ → α) (hF : ∀ i j, i ≡ j [ZMOD n] → F i = F j) (g : ℤ → ℤ)
    (hg : ∀ i j, g i ≡ g j [ZMOD n] → i ≡ j [ZMOD n]) :
    ((List.range n).map fun (i : ℕ) => F (g i)).Perm ((List.range n).map fun (i : ℕ) => F i) := by
  have hm : ∀ i : ℤ, ((i % n).toNat : ℤ) = i % n := fun i => Int.toNat_of_nonneg (Int.emod_nonneg i (by omega))
  have : ((List.range n).map fun (i : ℕ) => (g i % n).toNat).Perm (List.range n) := by
    apply List.Subperm.perm_of_length_le
    · apply List.Nodup.subperm
      · rw [List.nodup_map_iff_inj_on List.nodup_range]
        intro x hx y hy e
        rw [List.mem_range] at hx hy
        have e' : ((g x % n).toNat : ℤ) = ((g y % n).toNat : ℤ) := by rw [e]
        rw [hm, hm] at e'
        have := hg x y e'
        unfold Int.ModEq at this
        rw [Int.emod_eq_of_lt (by omega) (by omega), Int.emod_eq_of_lt (by omega) (by omega)] at this
        omega
      · intro x hx
        obtain ⟨i, hi, rfl⟩ := List.mem_map.mp hx
        have := Int.emod_lt_of_pos (g i) (show (0 : ℤ) < n by omega)
        have := hm (g i)
        exact List.mem_range.mpr (by omega)
    · simp
  have := this.map fun (i : ℕ) => F i
  rw [List.map_map] at this
  refine List.Perm.trans (List.Perm.of_eq ?_) this
  apply List.map_congr_left
  intro i _
  simp only [Function.comp, hm]
  exact hF _ _ (Int.mod_modEq _ _).symm

/-- The trigram at position `i`. -/
def triZ (vs : List (Vec2 K)) (i : ℤ) : Tri K := (atZ vs (i - 2), atZ vs (i - 1), atZ vs i)

theorem triZ_congr {vs : List (Vec2 K)} (i j : ℤ) (h : i ≡ j [ZMOD vs.length]) : triZ vs i = triZ vs j := by
  unfold triZ
  rw [atZ_congr h, atZ_congr (h.sub_right 1), atZ_congr (h.sub_right 2)]

theorem tris_rotate (vs : List (Vec2 K)) (h : 2 ≤ vs.length) (k : ℕ) : (tris (vs.rotate k)).Perm (tris vs) := by
  rw [tris_at _ (by simpa using h), tris_at _ h, List.length_rotate]
  have := range_map_perm vs.length (by omega) (triZ vs) triZ_congr (fun i => i + k) fun i j h => Int.ModEq.add_right_cancel' _ h
  refine List.Perm.trans (List.Perm.of_eq ?_) this
  apply List.map_congr_left
  intro i _
  unfold triZ
  rw [atZ_rotate _ (by omega), atZ_rotate _ (by omega), atZ_rotate _ (by omega),
    show (i : ℤ) - 2 + k = i + k - 2 by ring, show (i : ℤ) - 1 + k = i + k - 1 by ring]

theorem tris_reverse (vs : List (Vec2 K)) (h : 2 ≤ vs.length) : ((tris vs.reverse).map flip3).Perm (tris vs) := by
  rw [tris_at _ (by simpa using h), tris_at _ h, List.length_reverse, List.map_map]
  have := range_map_perm vs.length (by omega) (triZ vs) triZ_congr (fun i => 1 - i) fun i j h => by
    have := Int.ModEq.sub_left 1 h
    simpa using this
  refine List.Perm.trans (List.Perm.of_eq ?_) this
  apply List.map_congr_left
  intro i _
  simp only [Function.comp, flip3]
  unfold triZ
  rw [atZ_reverse _ (by omega), atZ_reverse _ (by omega), atZ_reverse _ (by omega),
    show -1 - ((i : ℤ) - 2) = 1 - i by ring, show -1 - ((i : ℤ) - 1) = 1 - i - 1 by ring, show -1 - (i : ℤ) = 1 - i - 2 by ring]

/-- **C55** polygons with the same vertices up to the starting vertex and the direction are `==`. -/
theorem C55_complete (s o : Polygon K) (h3 : 3 ≤ s.verts.length) (k : ℕ)
    (h : o.verts = s.verts.rotate k ∨ o.verts = s.verts.reverse.rotate k) : s.eq o = true := by
  rw [eq_iff_tris]
  rcases h with h | h
  · refine ⟨by rw [h, List.length_rotate], Or.inl ?_⟩
    rw [h]; exact (tris_rotate _ (by omega) k).symm
  · refine ⟨by rw [h, List.length_rotate, List.length_reverse], Or.inr ?_⟩
    rw [h]
    exact (((tris_rotate _ (by simp; omega) k).map flip3).trans (tris_reverse _ (by omega))).symm

/-- An edge at position `i`. -/
theorem edges_atZ (vs : List (Vec2 K)) (h : 2 ≤ vs.length) :
    edges vs = (List.range vs.length).map fun (i : ℕ) => (atZ vs ((i : ℤ) - 1), atZ vs i) := by
  rw [← range_map_edges]
  apply List.map_congr_left
  intro i hi
  rw [List.mem_range] at hi
  rw [nth_atZ _ _ (by omega) (by omega), nth_atZ _ _ (by omega) (by omega)]

/-- With distinct edges, positions are determined by edges. -/
theorem edge_pos {vs : List (Vec2 K)} (h : 2 ≤ vs.length) (hn : (edges vs).Nodup) {i j : ℤ}
    (h1 : atZ vs (i - 1) = atZ vs (j - 1)) (h2 : atZ vs i = atZ vs j) : i ≡ j [ZMOD vs.length] := by
  rw [edges_atZ vs h, List.nodup_map_iff_inj_on List.nodup_range] at hn
  have hm : ∀ i : ℤ, ((i % vs.length).toNat : ℤ) = i % vs.length := fun i => Int.toNat_of_nonneg (Int.emod_nonneg i (by omega))
  have hlt : ∀ i : ℤ, (i % vs.length).toNat ∈ List.range vs.length := by
    intro i
    have := Int.emod_lt_of_pos i (show (0 : ℤ) < vs.length by omega)
    have := hm i
    exact List.mem_range.mpr (by omega)
  have := hn _ (hlt i) _ (hlt j) (by
    rw [hm, hm]
    have e : ∀ i : ℤ, atZ vs (i % vs.length) = atZ vs i := fun i => atZ_congr (Int.mod_modEq _ _)
    have e1 : ∀ i : ℤ, atZ vs (i % vs.length - 1) = atZ vs (i - 1) := fun i => atZ_congr ((Int.mod_modEq _ _).sub_right 1)
    rw [e, e, e1, e1, h1, h2])
  have := congrArg (fun x : ℕ => (x : ℤ)) this
  simp only [hm] at this
  exact this

/-- Equal trigrams and distinct edges: the same closed path. -/
theorem rotate_of_tris {vs ws : List (Vec2 K)} (h3 : 3 ≤ vs.length) (hl : ws.length = vs.length) (hn : (edges vs).Nodup)
    (hp : ∀ t ∈ tris ws, t ∈ tris vs) : ∃ k, ws = vs.rotate k := by
  have hmem : ∀ i : ℤ, ∃ j : ℤ, triZ ws i = triZ vs j := by
    intro i
    have hlen : 0 < ws.length := by omega
    obtain ⟨k, hk, hc, -⟩ := atZ_nat ws hlen i
    have : triZ ws k ∈ tris ws := by
      rw [tris_at _ (by omega)]
      exact List.mem_map.mpr ⟨k, List.mem_range.mpr hk, rfl⟩
    have := hp _ this
    rw [tris_at _ (by omega)] at this
    obtain ⟨j, -, hj⟩ := List.mem_map.mp this
    exact ⟨j, by rw [triZ_congr _ _ hc]; exact hj.symm⟩
  obtain ⟨j0, hj0⟩ := hmem 0
  have key : ∀ i : ℕ, triZ ws i = triZ vs (i + j0) := by
    intro i
    induction i with
    | zero => simpa using hj0
    | succ i ih =>
      obtain ⟨j, hj⟩ := hmem ((i + 1 : ℕ) : ℤ)
      have h1 := congrArg (fun t : Tri K => t.2) ih
      have h2 := congrArg (fun t : Tri K => t.1) hj
      have h2' := congrArg (fun t : Tri K => t.2.1) hj
      simp only [triZ, Prod.mk.injEq] at h1 h2 h2'
      push_cast at hj h2 h2' ⊢
      rw [show (i : ℤ) + 1 - 2 = i - 1 by ring] at h2
      rw [show (i : ℤ) + 1 - 1 = i by ring] at h2'
      have := edge_pos (by omega) hn (i := j - 1) (j := i + j0) (by rw [show j - 1 - 1 = j - 2 by ring, ← h2, h1.1]) (by rw [← h2', h1.2])
      rw [hj]
      apply triZ_congr
      have := this.add_right 1
      rw [show j - 1 + 1 = j by ring] at this
      rw [show (i : ℤ) + 1 + j0 = i + j0 + 1 by ring]
      exact this
  refine ⟨(j0 % vs.length).toNat, ?_⟩
  have hm : ((j0 % vs.length).toNat : ℤ) = j0 % vs.length := Int.toNat_of_nonneg (Int.emod_nonneg j0 (by omega))
  apply List.ext_getElem
  · simp [hl]
  · intro i h1 h2
    rw [← atZ_lt _ i h1, ← atZ_lt _ i h2, atZ_rotate _ (by omega), hm]
    have := congrArg (fun t : Tri K => t.2.2) (key i)
    simp only [triZ] at this
    rw [this]
    exact atZ_congr ((Int.mod_modEq _ _).symm.add_left _)

/-- **C55** conversely `==` polygons have the same vertices up to the starting vertex and the direction. (Partial: when no
two edges of the first one are the same, as for polygons with distinct vertices; otherwise `C55_violated`.) -/
theorem C55_sound_partial (s o : Polygon K) (h3 : 3 ≤ s.verts.length) (hn : (edges s.verts).Nodup) (h : s.eq o = true) :
    ∃ k, o.verts = s.verts.rotate k ∨ o.verts = s.verts.reverse.rotate k := by
  rw [eq_iff_tris] at h
  obtain ⟨hl, h | h⟩ := h
  · obtain ⟨k, hk⟩ := rotate_of_tris h3 hl.symm hn fun t ht => h.symm.subset ht
    exact ⟨k, Or.inl hk⟩
  · have h' : ∀ t ∈ tris o.verts.reverse, t ∈ tris s.verts := by
      intro t ht
      have h1 := tris_reverse o.verts.reverse (by simp; omega)
      rw [List.reverse_reverse] at h1
      exact h.symm.subset (h1.symm.subset ht)
    obtain ⟨k, hk⟩ := rotate_of_tris h3 (by simpa using hl.symm) hn h'
    have hk' : o.verts = (s.verts.rotate k).reverse := by rw [← hk, List.reverse_reverse]
    rw [List.reverse_rotate] at hk'
    exact ⟨_, Or.inr hk'⟩

/-- Distinct vertices have distinct edges. -/
theorem edges_nodup {vs : List (Vec2 K)} (h : vs.Nodup) : (edges vs).Nodup := by
  have : (edges vs).map Prod.snd = vs := by
    rw [← range_map_edges, List.map_map]
    apply List.ext_getElem
    · simp
    · intro i h1 h2
      simp only [List.getElem_map, List.getElem_range, Function.comp]
      exact nth_ofNat vs i h2
  exact List.Nodup.of_map _ (this ▸ h)

/-- **C55** for polygons with distinct vertices, `==` is exactly equality up to the starting vertex and the direction. -/
theorem C55_distinct (s o : Polygon K) (h3 : 3 ≤ s.verts.length) (hn : s.verts.Nodup) :
    s.eq o = true ↔ ∃ k, o.verts = s.verts.rotate k ∨ o.verts = s.verts.reverse.rotate k :=
  ⟨C55_sound_partial s o h3 (edges_nodup hn), fun ⟨k, h⟩ => C55_complete s o h3 k h⟩

theorem tris_corners (vs : List (Vec2 K)) (h : 2 ≤ vs.length) : (tris vs).Perm (corners vs) := by
  have e : corners vs = (List.range vs.length).map fun (i : ℕ) => triZ vs ((i : ℤ) + 2) := by
    apply List.ext_getElem
    · simp [corners]
    · intro i h1 h2
      have hi : i < vs.length := by simpa using h2
      have a0 : vs[i] = atZ vs ((i : ℤ) + 2 - 2) := by
        rw [add_sub_cancel_right, atZ_lt vs i hi]
      have a1 : (vs.rotate 1)[i]'(by simpa using hi) = atZ vs ((i : ℤ) + 2 - 1) := by
        rw [← atZ_lt (vs.rotate 1) i (by simpa using hi), atZ_rotate vs (by omega)]
        congr 1; push_cast; ring
      have a2 : (vs.rotate 2)[i]'(by simpa using hi) = atZ vs ((i : ℤ) + 2) := by
        rw [← atZ_lt (vs.rotate 2) i (by simpa using hi), atZ_rotate vs (by omega)]
        congr 1
      simp only [corners, List.getElem_zip, List.getElem_map, List.getElem_range, triZ]
      rw [a0, a1, a2]
  rw [e, tris_at vs h]
  exact (range_map_perm vs.length (by omega) (triZ vs) triZ_congr (fun i => i + 2)
    fun i j h => Int.ModEq.add_right_cancel' _ h).symm

/-- **C55** exactly, for all polygons, repeated vertices and edges or not: `==` says that the polygons have equally many
vertices and each corner (a vertex with the two that follow) as often in the one as in the other, walking the other one
forwards or backwards. (Partial: this is less than equality of the closed paths, see `C55_violated`.) -/
theorem C55_exact_partial (s o : Polygon K) (h2 : 2 ≤ s.verts.length) :
    s.eq o = true ↔ s.verts.length = o.verts.length ∧
      ((corners s.verts).Perm (corners o.verts) ∨ (corners s.verts).Perm (corners o.verts.reverse)) := by
  rw [eq_iff_tris]
  refine and_congr_right fun hl => ?_
  have h2' : 2 ≤ o.verts.length := by omega
  have c1 := tris_corners s.verts h2
  have c2 := tris_corners o.verts h2'
  have c3 := tris_corners o.verts.reverse (by simpa using h2')
  have r : ((tris o.verts).map flip3).Perm (tris o.verts.reverse) := by
    have := tris_reverse o.verts.reverse (by simpa using h2')
    rw [List.reverse_reverse] at this
    exact this
  refine or_congr ⟨fun h => c1.symm.trans (h.trans c2), fun h => c1.trans (h.trans c2.symm)⟩
    ⟨fun h => c1.symm.trans (h.trans (r.trans c3)), fun h => c1.trans (h.trans (c3.symm.trans r.symm))⟩

/-- The first example of `C55_violated`: three loops through the same edge. -/
def loops1 : List (Vec2 ℚ) := [⟨0, 0⟩, ⟨1, 0⟩, ⟨2, 1⟩, ⟨0, 0⟩, ⟨1, 0⟩, ⟨1, 2⟩, ⟨0, 0⟩, ⟨1, 0⟩, ⟨0, 3⟩]
/-- The second one: the loops in another order. -/
def loops2 : List (Vec2 ℚ) := [⟨0, 0⟩, ⟨1, 0⟩, ⟨2, 1⟩, ⟨0, 0⟩, ⟨1, 0⟩, ⟨0, 3⟩, ⟨0, 0⟩, ⟨1, 0⟩, ⟨1, 2⟩]

private instance : DecidableEq (Vec2 ℚ) := fun a b => decidable_of_iff (a.x = b.x ∧ a.y = b.y) Vec2.ext_iff.symm

/-- **C55** is false when an edge is repeated: these polygons are `==`, and neither is a rotation of the other or of its
reverse. -/
theorem C55_violated : (Polygon.fromPoints loops1).eq (Polygon.fromPoints loops2) = true ∧
    ¬ ∃ k, loops2 = loops1.rotate k ∨ loops2 = loops1.reverse.rotate k := by
  refine ⟨by decide +kernel, ?_⟩
  have h : ∀ k < 9, ¬ (loops2 = loops1.rotate k ∨ loops2 = loops1.reverse.rotate k) := by decide +kernel
  rintro ⟨k, hk⟩
  apply h (k % 9) (Nat.mod_lt _ (by norm_num))
  have e1 : loops1.rotate (k % 9) = loops1.rotate k := List.rotate_mod loops1 k
  have e2 : loops1.reverse.rotate (k % 9) = loops1.reverse.rotate k := List.rotate_mod loops1.reverse k
  rw [e1, e2]; exact hk

/-- The hypotheses are met: a polygon and the same one from another vertex and in the other direction; and one that
differs in a vertex is not equal. -/
example : (Polygon.fromPoints [⟨0, 0⟩, ⟨4, 0⟩, ⟨4, 4⟩, (⟨0, 5⟩ : Vec2 ℚ)]).eq
      (Polygon.fromPoints [⟨4, 0⟩, ⟨0, 0⟩, ⟨0, 5⟩, ⟨4, 4⟩]) = true ∧
    (Polygon.fromPoints [⟨0, 0⟩, ⟨4, 0⟩, ⟨4, 4⟩, (⟨0, 5⟩ : Vec2 ℚ)]).eq
      (Polygon.fromPoints [⟨0, 0⟩, ⟨4, 0⟩, ⟨0, 5⟩, ⟨4, 4⟩]) = false := by decide +kernel

end Planar
