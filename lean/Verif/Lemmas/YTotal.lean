import Verif.Lemmas.YMono
/- The test with the stored chains never raises, whatever the polygon. -/
set_option linter.unusedSectionVars false
namespace Planar
open Spec
namespace Polygon
variable {K : Type} [Field K] [LinearOrder K] [IsStrictOrderedRing K]

/-- A chain with one end at height `lo` and the other at height `hi` is stored from `lo` to `hi`. -/
theorem upward_ends {L : List (Vec2 K)} {a b : Vec2 K} (ha : L.head? = some a) (hb : L.getLast? = some b) {lo hi : K}
    (hle : lo ≤ hi) (h : (a.y = lo ∧ b.y = hi) ∨ (a.y = hi ∧ b.y = lo)) :
    ∃ (L' : List (Vec2 K)) (a' b' : Vec2 K), upward (L.map yx) = L'.map yx ∧ L'.head? = some a' ∧ L'.getLast? = some b' ∧ a'.y = lo ∧ b'.y = hi ∧
      ∀ v ∈ L', v ∈ L := by
  have h1 : (L.map yx).head? = some (yx a) := by rw [List.head?_map, ha]; rfl
  have h2 : (L.map yx).getLast? = some (yx b) := by rw [List.getLast?_map, hb]; rfl
  unfold upward
  rw [h1, h2]
  by_cases hlt : b.y < a.y
  · refine ⟨L.reverse, b, a, ?_, by rw [List.head?_reverse, hb], by rw [List.getLast?_reverse, ha], ?_, ?_, fun v hv => List.mem_reverse.mp hv⟩
    · simp only [yx, gt_iff_lt, hlt, if_true, List.map_reverse]
    · rcases h with h | h
      · linarith [h.1, h.2]
      · exact h.2
    · rcases h with h | h
      · linarith [h.1, h.2]
      · exact h.1
  · refine ⟨L, a, b, ?_, ha, hb, ?_, ?_, fun v hv => hv⟩
    · simp only [yx, gt_iff_lt, hlt, if_false]
    · rcases h with h | h
      · exact h.1
      · linarith [h.1, h.2, not_lt.mp hlt]
    · rcases h with h | h
      · exact h.2
      · linarith [h.1, h.2, not_lt.mp hlt]

theorem seg_ends {α : Type} {l : List α} {i j : Nat} (hij : i ≤ j) (hj : j < l.length) :
    ((l.take (j + 1)).drop i).head? = l[i]? ∧ ((l.take (j + 1)).drop i).getLast? = l[j]? ∧
    (l.drop j ++ l.take (i + 1)).head? = l[j]? ∧ (l.drop j ++ l.take (i + 1)).getLast? = l[i]? := by
  refine ⟨?_, ?_, ?_, ?_⟩
  · rw [List.head?_drop, List.getElem?_take_of_lt (by omega)]
  · rw [List.getLast?_drop, List.length_take, if_neg (by omega), List.getLast?_take]
    simp [hj]
  · rw [List.head?_append, List.head?_drop]; simp [hj]
  · rw [List.getLast?_append, List.getLast?_take]
    simp [show i < l.length by omega]

/-- The two stored chains lead from a lowest to a highest vertex; both consist of vertices. -/
theorem split_shape {vs : List (Vec2 K)} (hne : vs ≠ []) :
    ∃ (l r : List (Vec2 K)) (ml Ml mr Mr : Vec2 K), splitYPolylines vs = (l.map yx, r.map yx) ∧ l.head? = some ml ∧ l.getLast? = some Ml ∧
      r.head? = some mr ∧ r.getLast? = some Mr ∧ mr.y = ml.y ∧ Mr.y = Ml.y ∧ (∀ v ∈ l ++ r, ml.y ≤ v.y) ∧
      (∀ v ∈ l ++ r, v.y ≤ Ml.y) ∧ (∀ v ∈ l ++ r, v ∈ vs) := by
  obtain ⟨hmin, hmax, -, -⟩ := yExtremes_spec hne
  generalize hE : yExtremes vs = E at hmin hmax
  obtain ⟨m, hm, hmy, hmlo, -⟩ := id hmin
  obtain ⟨M, hM, hMy, hMhi, -⟩ := id hmax
  have lo : ∀ v ∈ vs, m.y ≤ v.y := fun v hv => by have := hmlo v hv; simp only at this hmy; linarith
  have hi : ∀ v ∈ vs, v.y ≤ M.y := fun v hv => by have := hMhi v hv; simp only at this hMy; linarith
  have hle : m.y ≤ M.y := hi m (List.mem_of_getElem? hm)
  have hmi := (List.getElem?_eq_some_iff.mp hm).1
  have hMi := (List.getElem?_eq_some_iff.mp hM).1
  have hyx : ∀ l : List (Vec2 K), (l.map fun v => (v.y, v.x)) = l.map yx := fun _ => rfl
  have fin : ∀ (P Q : List (Vec2 K)) (a b c d : Vec2 K), P.head? = some a → P.getLast? = some b → Q.head? = some c →
      Q.getLast? = some d → ((a.y = m.y ∧ b.y = M.y) ∨ (a.y = M.y ∧ b.y = m.y)) →
      ((c.y = m.y ∧ d.y = M.y) ∨ (c.y = M.y ∧ d.y = m.y)) → (∀ v ∈ P ++ Q, v ∈ vs) →
      ∃ (l r : List (Vec2 K)) (ml Ml mr Mr : Vec2 K), (upward (P.map yx), upward (Q.map yx)) = (l.map yx, r.map yx) ∧ l.head? = some ml ∧ l.getLast? = some Ml ∧
      r.head? = some mr ∧ r.getLast? = some Mr ∧ mr.y = ml.y ∧ Mr.y = Ml.y ∧ (∀ v ∈ l ++ r, ml.y ≤ v.y) ∧
      (∀ v ∈ l ++ r, v.y ≤ Ml.y) ∧ (∀ v ∈ l ++ r, v ∈ vs) := by
    intro P Q a b c d h1 h2 h3 h4 h5 h6 hmem
    obtain ⟨l, ml, Ml, e1, e2, e3, e4, e5, e6⟩ := upward_ends h1 h2 hle h5
    obtain ⟨r, mr, Mr, f1, f2, f3, f4, f5, f6⟩ := upward_ends h3 h4 hle h6
    have hmem' : ∀ v ∈ l ++ r, v ∈ vs := by
      intro v hv
      rcases List.mem_append.mp hv with h | h
      · exact hmem v (List.mem_append_left _ (e6 v h))
      · exact hmem v (List.mem_append_right _ (f6 v h))
    exact ⟨l, r, ml, Ml, mr, Mr, by rw [e1, f1], e2, e3, f2, f3, by rw [f4, e4], by rw [f5, e5],
      fun v hv => by rw [e4]; exact lo v (hmem' v hv), fun v hv => by rw [e5]; exact hi v (hmem' v hv), hmem'⟩
  have mem1 : ∀ i j (v : Vec2 K), v ∈ (vs.take (j + 1)).drop i → v ∈ vs := fun i j v h => List.mem_of_mem_take (List.mem_of_mem_drop h)
  have mem2 : ∀ i j (v : Vec2 K), v ∈ vs.drop j ++ vs.take (i + 1) → v ∈ vs := fun i j v h => by
    rcases List.mem_append.mp h with h | h
    exacts [List.mem_of_mem_drop h, List.mem_of_mem_take h]
  unfold splitYPolylines
  simp only [hE, hyx, ← List.map_take, ← List.map_drop, ← List.map_append]
  split
  · rename_i hlt
    obtain ⟨s1, s2, s3, s4⟩ := seg_ends (l := vs) hlt.le hMi
    rw [hm] at s1 s4; rw [hM] at s2 s3
    split
    · exact fin _ _ m M M m s1 s2 s3 s4 (Or.inl ⟨rfl, rfl⟩) (Or.inr ⟨rfl, rfl⟩) (fun v hv => by
        rcases List.mem_append.mp hv with h | h
        exacts [mem1 _ _ v h, mem2 _ _ v h])
    · exact fin _ _ M m m M s3 s4 s1 s2 (Or.inr ⟨rfl, rfl⟩) (Or.inl ⟨rfl, rfl⟩) (fun v hv => by
        rcases List.mem_append.mp hv with h | h
        exacts [mem2 _ _ v h, mem1 _ _ v h])
  · rename_i hlt
    obtain ⟨s1, s2, s3, s4⟩ := seg_ends (l := vs) (not_lt.mp hlt) hmi
    rw [hM] at s1 s4; rw [hm] at s2 s3
    split
    · exact fin _ _ M m m M s1 s2 s3 s4 (Or.inr ⟨rfl, rfl⟩) (Or.inl ⟨rfl, rfl⟩) (fun v hv => by
        rcases List.mem_append.mp hv with h | h
        exacts [mem1 _ _ v h, mem2 _ _ v h])
    · exact fin _ _ m M M m s3 s4 s1 s2 (Or.inl ⟨rfl, rfl⟩) (Or.inr ⟨rfl, rfl⟩) (fun v hv => by
        rcases List.mem_append.mp hv with h | h
        exacts [mem2 _ _ v h, mem1 _ _ v h])

theorem ymono_total {vs : List (Vec2 K)} (hne : vs ≠ []) (p : Vec2 K) :
    ∃ b, pnpYMonotone (splitYPolylines vs) p = .ok b := by
  obtain ⟨l, r, ml, Ml, mr, Mr, h0, h1, h2, h3, h4, h5, h6, h7, h8, -⟩ := split_shape hne
  rw [h0]
  obtain ⟨s1, s2⟩ := ymono_spec h1 h2 h3 h4 h5 h6 h7 h8 p
  by_cases h : ml.y < p.y ∧ p.y ≤ Ml.y
  · obtain ⟨a, b, c, d, -, -, -, -, -, -, h⟩ := s2 h.1 h.2
    exact ⟨_, h⟩
  · exact ⟨_, s1 h⟩

end Polygon
end Planar
