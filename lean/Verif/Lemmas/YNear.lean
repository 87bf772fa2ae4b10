import Verif.Lemmas.WindNear
import Verif.Lemmas.YExact
import Verif.Lemmas.HullGeom
import Verif.Spec.NearPoly
/- The test with two chains for polygons whose vertices are near those of a convex polygon. -/
set_option linter.unusedSectionVars false
namespace Planar
open Spec
namespace Polygon

/-! ### The chains -/

/-- The vertices from number `i` to number `j`, going round. -/
def sect {α : Type} (l : List α) (i j : Nat) : List α := if i < j then (l.take (j + 1)).drop i else l.drop i ++ l.take (j + 1)

/-- The number `k` is met when going round from `i` to `j`. -/
def Inside (i k j : Nat) : Prop := if i < j then i < k ∧ k < j else i < k ∨ k < j

theorem inside_lt {i k j : Nat} (h : i < j) : Inside i k j ↔ i < k ∧ k < j := by unfold Inside; rw [if_pos h]
theorem inside_gt {i k j : Nat} (h : j < i) : Inside i k j ↔ i < k ∨ k < j := by unfold Inside; rw [if_neg (by omega)]

theorem inside_or {i k j : Nat} (hij : i ≠ j) (hi : k ≠ i) (hj : k ≠ j) : Inside i k j ∨ Inside j k i := by
  unfold Inside
  rcases lt_or_gt_of_ne hij with h | h
  · rw [if_pos h, if_neg (by omega)]; omega
  · rw [if_neg (by omega), if_pos h]; omega

theorem sect_rel {α β : Type} {R : α → β → Prop} {l : List α} {m : List β} (h : List.Forall₂ R l m) (i j : Nat) :
    List.Forall₂ R (sect l i j) (sect m i j) := by
  unfold sect
  split
  · exact List.forall₂_drop _ (List.forall₂_take _ h)
  · exact List.rel_append (List.forall₂_drop _ h) (List.forall₂_take _ h)

section Field
variable {K : Type} [Field K] [LinearOrder K] [IsStrictOrderedRing K]

/-- A closed path cut at two vertices. -/
theorem sect_form {l : List (Vec2 K)} {i j : Nat} (hij : i ≠ j) (hi : i < l.length) (hj : j < l.length) :
    ∃ x y B B', l[i]? = some x ∧ l[j]? = some y ∧ sect l i j = x :: (B ++ [y]) ∧ sect l j i = y :: (B' ++ [x]) ∧
      (edgesFrom x (B ++ [y]) ++ edgesFrom y (B' ++ [x])).Perm (edges l) ∧
      (∀ k u, l[k]? = some u → Inside i k j → u ∈ B) ∧ (∀ k u, l[k]? = some u → Inside j k i → u ∈ B') := by
  have key : ∀ {i j : Nat}, i < j → j < l.length →
      ∃ x y B B', l[i]? = some x ∧ l[j]? = some y ∧ sect l i j = x :: (B ++ [y]) ∧ sect l j i = y :: (B' ++ [x]) ∧
      (edgesFrom x (B ++ [y]) ++ edgesFrom y (B' ++ [x])).Perm (edges l) ∧
      (∀ k u, l[k]? = some u → Inside i k j → u ∈ B) ∧ (∀ k u, l[k]? = some u → Inside j k i → u ∈ B') := by
    intro i j hlt hj
    obtain ⟨A, x, B, y, C, hvs, hA, hB, e1, e2, e3⟩ := cut hlt hj
    refine ⟨x, y, B, C ++ A, ?_, ?_, ?_, ?_, e3, ?_, ?_⟩
    · rw [hvs, ← hA, List.getElem?_append_right le_rfl]; simp
    · rw [hvs, ← hB, List.getElem?_append_right (by omega),
        show A.length + 1 + B.length - A.length = B.length + 1 by omega, List.getElem?_cons_succ, List.getElem?_append_right le_rfl]
      simp
    · unfold sect; rw [if_pos hlt, e1]
    · unfold sect; rw [if_neg (by omega), e2]
    · intro k u hk hin
      unfold Inside at hin
      rw [if_pos hlt] at hin
      have pos := cut_mem (by rw [← hvs]; exact hk)
      exact pos.1 (by omega) (by omega)
    · intro k u hk hin
      unfold Inside at hin
      rw [if_neg (by omega)] at hin
      have pos := cut_mem (by rw [← hvs]; exact hk)
      rcases hin with h | h
      · exact pos.2.2 (by omega)
      · exact pos.2.1 (by omega)
  rcases lt_or_gt_of_ne hij with h | h
  · exact key h hj
  · obtain ⟨x, y, B, B', h1, h2, h3, h4, h5, h6, h7⟩ := key h hi
    exact ⟨y, x, B', B, h2, h1, h4, h3, List.perm_append_comm.trans h5, h7, h6⟩

theorem edge_into {a u : Vec2 K} {l : List (Vec2 K)} (h : u ∈ l) : ∃ t, (t, u) ∈ edgesFrom a l := by
  induction l generalizing a with
  | nil => simp at h
  | cons b l ih =>
    rcases List.mem_cons.mp h with rfl | h
    · exact ⟨a, by simp⟩
    · obtain ⟨t, ht⟩ := ih (a := b) h
      exact ⟨t, by simp [ht]⟩

theorem adj_rel {β : Type} [Field β] [LinearOrder β] [IsStrictOrderedRing β] {R : Vec2 K → Vec2 β → Prop} {c : List (Vec2 K)} {c' : List (Vec2 β)}
    (h : List.Forall₂ R c c') {a b : Vec2 K} (hab : Adj c a b) : ∃ A B, Adj c' A B ∧ R a A ∧ R b B := by
  obtain ⟨i, h1, h2⟩ := hab
  have get : ∀ {k : Nat} {v : Vec2 K}, c[k]? = some v → ∃ V, c'[k]? = some V ∧ R v V := by
    intro k v hk
    obtain ⟨hl, rfl⟩ := List.getElem?_eq_some_iff.mp hk
    have hl' : k < c'.length := by rw [← h.length_eq]; exact hl
    exact ⟨c'[k], List.getElem?_eq_getElem hl', h.get hl hl'⟩
  obtain ⟨A, hA, rA⟩ := get h1
  obtain ⟨B, hB, rB⟩ := get h2
  exact ⟨A, B, ⟨i, hA, hB⟩, rA, rB⟩

/-- What `_split_y_polylines` stores, in terms of the way up (from the lowest to the highest vertex) and the way down. -/
theorem split_sect {ws : List (Vec2 K)} (hne : ws ≠ []) (hij : (yExtremes ws).minI ≠ (yExtremes ws).maxI) :
    let E := yExtremes ws
    let U : List (K × K) := (sect ws E.minI E.maxI).map yx
    let D : List (K × K) := (sect ws E.maxI E.minI).reverse.map yx
    (splitYPolylines ws = (U, D) ∨ splitYPolylines ws = (D, U)) ∧
    (Inside E.minI E.leftI E.maxI → Inside E.maxI E.rightI E.minI → splitYPolylines ws = (U, D)) ∧
    (Inside E.maxI E.leftI E.minI → Inside E.minI E.rightI E.maxI → splitYPolylines ws = (D, U)) := by
  intro E U D
  obtain ⟨hmin, hmax, -, -⟩ := yExtremes_spec hne
  obtain ⟨m, hm, hmy, hmlo, hmf⟩ := id hmin
  obtain ⟨M, hM, hMy, hMhi, hMf⟩ := id hmax
  have hi_lt : E.minI < ws.length := (List.getElem?_eq_some_iff.mp hm).1
  have hM_lt : E.maxI < ws.length := (List.getElem?_eq_some_iff.mp hM).1
  have mmem : m ∈ ws := List.mem_of_getElem? hm
  have Mmem : M ∈ ws := List.mem_of_getElem? hM
  obtain ⟨x, y, B, B', h1, h2, h3, h4, -⟩ := sect_form hij hi_lt hM_lt
  have ex : x = m := by rw [hm] at h1; exact (Option.some.inj h1).symm
  have ey : y = M := by rw [hM] at h2; exact (Option.some.inj h2).symm
  subst ex ey
  have hle : x.y ≤ y.y := by have := hmlo y Mmem; simp only at this hmy; linarith
  have hylt : x.y < y.y := by
    rcases lt_or_eq_of_le hle with h | h
    · exact h
    · exfalso
      rcases lt_or_gt_of_ne hij with hlt | hlt
      · have := hMf _ x hlt hm
        simp only at this hMy; linarith
      · have := hmf _ y hlt hM
        simp only at this hmy; linarith
  have hU : U = upward (((sect ws E.minI E.maxI)).map yx) := by
    simp only [U]; rw [h3, upward_up hylt.le]
  have hD : D = upward (((sect ws E.maxI E.minI)).map yx) := by
    simp only [D]; rw [h4, upward_down hylt]
  have hyx : ∀ l : List (Vec2 K), (l.map fun v => (v.y, v.x)) = l.map yx := fun _ => rfl
  rw [hU, hD]
  unfold splitYPolylines
  simp only [hyx]
  change _ ∧ _
  rcases lt_or_gt_of_ne hij with hlt | hlt
  · have e1 : sect ws E.minI E.maxI = (ws.take (E.maxI + 1)).drop E.minI := by unfold sect; rw [if_pos hlt]
    have e2 : sect ws E.maxI E.minI = ws.drop E.maxI ++ ws.take (E.minI + 1) := by
      unfold sect; rw [if_neg (by exact not_lt.mpr hlt.le)]
    rw [e1, e2]
    simp only [List.map_take, List.map_drop, List.map_append]
    rw [if_pos hlt]
    refine ⟨?_, ?_, ?_⟩
    · split
      · exact .inl rfl
      · exact .inr rfl
    · intro a b
      rw [inside_lt hlt] at a
      rw [if_pos (.inl ⟨a.1.le, a.2⟩)]
    · intro a b
      rw [inside_gt hlt] at a
      rw [inside_lt hlt] at b
      rw [if_neg (by simp only [E] at *; rintro (h | h | h) <;> omega)]
  · have e1 : sect ws E.maxI E.minI = (ws.take (E.minI + 1)).drop E.maxI := by unfold sect; rw [if_pos hlt]
    have e2 : sect ws E.minI E.maxI = ws.drop E.minI ++ ws.take (E.maxI + 1) := by
      unfold sect; rw [if_neg (by exact not_lt.mpr hlt.le)]
    rw [e1, e2]
    simp only [List.map_take, List.map_drop, List.map_append]
    rw [if_neg (not_lt.mpr hlt.le)]
    refine ⟨?_, ?_, ?_⟩
    · split
      · exact .inr rfl
      · exact .inl rfl
    · intro a b
      rw [inside_gt hlt] at a
      rw [inside_lt hlt] at b
      rw [if_neg (by simp only [E] at *; rintro (h | h | h) <;> omega)]
    · intro a b
      rw [inside_lt hlt] at a
      rw [if_pos (.inl ⟨a.2.le, a.1⟩)]

/-! ### Convex chains -/

/-- On the way up of a convex polygon an edge at a height between the ends goes up. -/
theorem chain_up {a b : Vec2 K} {l : List (Vec2 K × Vec2 K)} (hp : IsPath a l b)
    (hpw : ∀ h, l.Pairwise (fun e f => ¬ (Up h e ∧ Up h f))) {e : Vec2 K × Vec2 K} (he : e ∈ l) {y : K}
    (hy : (e.1.y ≤ y ∧ y ≤ e.2.y) ∨ (e.2.y ≤ y ∧ y ≤ e.1.y)) (h1 : a.y < y) (h2 : y < b.y) : e.1.y ≤ e.2.y := by
  by_contra hlt
  have hlt := not_le.mp hlt
  have hy : e.2.y ≤ y ∧ y ≤ e.1.y := by
    rcases hy with h | h
    · exact absurd (h.1.trans h.2) (not_le.mpr hlt)
    · exact h
  obtain ⟨h, k1, k2, k3, k4⟩ : ∃ h, e.2.y < h ∧ h ≤ e.1.y ∧ a.y < h ∧ h ≤ b.y := by
    by_cases hc : e.2.y < y
    · exact ⟨y, hc, hy.2, h1, h2.le⟩
    · have : e.2.y = y := le_antisymm hy.1 (not_lt.mp hc)
      exact ⟨min e.1.y b.y, lt_min hlt (by rw [this]; exact h2), min_le_left _ _, lt_min (h1.trans_le hy.2) (h1.trans h2), min_le_right _ _⟩
  obtain ⟨l1, l2, rfl⟩ := List.append_of_mem he
  obtain ⟨c, p1, p2⟩ := isPath_append.mp hp
  obtain ⟨rfl, p3⟩ : c = e.1 ∧ IsPath e.2 l2 b := by
    obtain ⟨q1, q2⟩ := p2
    exact ⟨q1.symm, q2⟩
  obtain ⟨f, hf, uf⟩ := path_up p1 k3 k2
  obtain ⟨g, hg, ug⟩ := path_up p3 k1 k4
  exact (List.pairwise_append.mp (hpw h)).2.2 f hf g (List.mem_cons_of_mem _ hg) ⟨uf, ug⟩

/-- On the way down it goes down. -/
theorem chain_dn {a b : Vec2 K} {l : List (Vec2 K × Vec2 K)} (hp : IsPath a l b)
    (hpw : ∀ h, l.Pairwise (fun e f => ¬ (Dn h e ∧ Dn h f))) {e : Vec2 K × Vec2 K} (he : e ∈ l) {y : K}
    (hy : (e.1.y ≤ y ∧ y ≤ e.2.y) ∨ (e.2.y ≤ y ∧ y ≤ e.1.y)) (h1 : b.y < y) (h2 : y < a.y) : e.2.y ≤ e.1.y := by
  by_contra hlt
  have hlt := not_le.mp hlt
  have hy : e.1.y ≤ y ∧ y ≤ e.2.y := by
    rcases hy with h | h
    · exact h
    · exact absurd (h.1.trans h.2) (not_le.mpr hlt)
  obtain ⟨h, k1, k2, k3, k4⟩ : ∃ h, e.1.y < h ∧ h ≤ e.2.y ∧ b.y < h ∧ h ≤ a.y := by
    by_cases hc : e.1.y < y
    · exact ⟨y, hc, hy.2, h1, h2.le⟩
    · have : e.1.y = y := le_antisymm hy.1 (not_lt.mp hc)
      exact ⟨min e.2.y a.y, lt_min hlt (by rw [this]; exact h2), min_le_left _ _, lt_min (h1.trans_le hy.2) (h1.trans h2), min_le_right _ _⟩
  obtain ⟨l1, l2, rfl⟩ := List.append_of_mem he
  obtain ⟨c, p1, p2⟩ := isPath_append.mp hp
  obtain ⟨rfl, p3⟩ : c = e.1 ∧ IsPath e.2 l2 b := by
    obtain ⟨q1, q2⟩ := p2
    exact ⟨q1.symm, q2⟩
  obtain ⟨f, hf, uf⟩ := path_dn p1 k1 k4
  obtain ⟨g, hg, ug⟩ := path_dn p3 k3 k2
  exact (List.pairwise_append.mp (hpw h)).2.2 f hf g (List.mem_cons_of_mem _ hg) ⟨uf, ug⟩

/-- No point between the heights of two vertices is on a horizontal edge of a one-sided polygon. -/
theorem not_level {V : List (Vec2 K)} (ho : OneSided V) {e : Vec2 K × Vec2 K} (he : e ∈ edges V) (hne : e.1 ≠ e.2)
    {v w : Vec2 K} (hv : v ∈ V) (hw : w ∈ V) (h1 : v.y < e.1.y) (h2 : e.1.y < w.y) : e.1.y ≠ e.2.y := by
  intro heq
  have hx : e.1.x ≠ e.2.x := fun hx => hne (Vec2.ext hx heq)
  have s : ∀ u : Vec2 K, side e.1 e.2 u = (e.2.x - e.1.x) * (u.y - e.1.y) := by intro u; unfold side; rw [heq]; ring
  have d1 : v.y - e.1.y < 0 := by linarith
  have d2 : 0 < w.y - e.1.y := by linarith
  rcases ho with ho | ho
  · have a1 := ho e he v hv
    have a2 := ho e he w hw
    rw [s] at a1 a2
    rcases lt_or_gt_of_ne hx with h | h
    · nlinarith [mul_pos (sub_pos.mpr h) (neg_pos.mpr d1)]
    · nlinarith [mul_pos (sub_pos.mpr h) d2]
  · have a1 := ho e he v hv
    have a2 := ho e he w hw
    rw [s] at a1 a2
    rcases lt_or_gt_of_ne hx with h | h
    · nlinarith [mul_pos (sub_pos.mpr h) d2]
    · nlinarith [mul_pos (sub_pos.mpr h) (neg_pos.mpr d1)]

end Field
end Polygon
end Planar
