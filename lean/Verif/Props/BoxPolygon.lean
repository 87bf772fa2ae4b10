import Verif.Lemmas.Chain
import Verif.Model.BoxPoly
import Verif.Props.PolyState
/- Property C28: `BoundingBox.to_polygon`. -/
set_option linter.unusedSectionVars false
namespace Planar
open Spec Polygon
variable {K : Type} [Field K] [LinearOrder K] [IsStrictOrderedRing K]

theorem split_box {x0 y0 x1 y1 : K} (hx : x0 ≤ x1) (hy : y0 < y1) :
    splitYPolylines [⟨x0, y0⟩, ⟨x0, y1⟩, ⟨x1, y1⟩, (⟨x1, y0⟩ : Vec2 K)] =
      ([⟨x0, y0⟩, (⟨x0, y1⟩ : Vec2 K)].map yx, [⟨x0, y0⟩, ⟨x1, y0⟩, ⟨x1, y1⟩, (⟨x0, y1⟩ : Vec2 K)].map yx) := by
  have n0 : nth [⟨x0, y0⟩, ⟨x0, y1⟩, ⟨x1, y1⟩, (⟨x1, y0⟩ : Vec2 K)] 0 = ⟨x0, y0⟩ := rfl
  have hr : (List.range 4).zip [⟨x0, y0⟩, ⟨x0, y1⟩, ⟨x1, y1⟩, (⟨x1, y0⟩ : Vec2 K)] =
      [(0, ⟨x0, y0⟩), (1, ⟨x0, y1⟩), (2, ⟨x1, y1⟩), (3, ⟨x1, y0⟩)] := rfl
  have e : (yExtremes [⟨x0, y0⟩, ⟨x0, y1⟩, ⟨x1, y1⟩, (⟨x1, y0⟩ : Vec2 K)]).minI = 0 ∧
      (yExtremes [⟨x0, y0⟩, ⟨x0, y1⟩, ⟨x1, y1⟩, (⟨x1, y0⟩ : Vec2 K)]).maxI = 1 ∧
      (yExtremes [⟨x0, y0⟩, ⟨x0, y1⟩, ⟨x1, y1⟩, (⟨x1, y0⟩ : Vec2 K)]).leftI = 0 := by
    unfold yExtremes
    simp only [n0, List.length_cons, List.length_nil, Nat.reduceAdd, hr, List.foldl_cons, List.foldl_nil]
    unfold yExtStep
    rcases lt_or_eq_of_le hx with h | h
    · simp [hy, not_lt.mpr hy.le, h, not_lt.mpr hx]
    · subst h; simp [hy, not_lt.mpr hy.le]
  unfold splitYPolylines
  simp only [e.1, e.2.1, e.2.2]
  simp [upward, yx, hy, not_lt.mpr hy.le]

theorem split_flat {x0 y0 x1 : K} (hx : x0 ≤ x1) :
    ∃ l r : List (Vec2 K), splitYPolylines [⟨x0, y0⟩, ⟨x0, y0⟩, ⟨x1, y0⟩, (⟨x1, y0⟩ : Vec2 K)] = (l.map yx, r.map yx) ∧
      l ≠ [] ∧ r ≠ [] ∧ ∀ v ∈ l ++ r, v.y = y0 := by
  have n0 : nth [⟨x0, y0⟩, ⟨x0, y0⟩, ⟨x1, y0⟩, (⟨x1, y0⟩ : Vec2 K)] 0 = ⟨x0, y0⟩ := rfl
  have hr : (List.range 4).zip [⟨x0, y0⟩, ⟨x0, y0⟩, ⟨x1, y0⟩, (⟨x1, y0⟩ : Vec2 K)] =
      [(0, ⟨x0, y0⟩), (1, ⟨x0, y0⟩), (2, ⟨x1, y0⟩), (3, ⟨x1, y0⟩)] := rfl
  have e : (yExtremes [⟨x0, y0⟩, ⟨x0, y0⟩, ⟨x1, y0⟩, (⟨x1, y0⟩ : Vec2 K)]).minI = 0 ∧
      (yExtremes [⟨x0, y0⟩, ⟨x0, y0⟩, ⟨x1, y0⟩, (⟨x1, y0⟩ : Vec2 K)]).maxI = 0 := by
    unfold yExtremes
    simp only [n0, List.length_cons, List.length_nil, Nat.reduceAdd, hr, List.foldl_cons, List.foldl_nil]
    unfold yExtStep
    rcases lt_or_eq_of_le hx with h | h
    · simp [h, not_lt.mpr hx]
    · subst h; simp
  unfold splitYPolylines
  simp only [e.1, e.2, lt_irrefl, if_false]
  split
  · exact ⟨[⟨x0, y0⟩], [⟨x0, y0⟩, ⟨x0, y0⟩, ⟨x1, y0⟩, ⟨x1, y0⟩, ⟨x0, y0⟩], by simp [upward, yx], by simp, by simp, by simp⟩
  · exact ⟨[⟨x0, y0⟩, ⟨x0, y0⟩, ⟨x1, y0⟩, ⟨x1, y0⟩, ⟨x0, y0⟩], [⟨x0, y0⟩], by simp [upward, yx], by simp, by simp, by simp⟩

/-- **C28** the polygon of a box contains exactly the points of the box, also when the box is empty. The hypotheses say
that the two corners of the box are ordered, which holds for every box the API builds (C21). -/
theorem C28_to_polygon (eps : K) (b : Box K) (hx : b.min.x ≤ b.max.x) (hy : b.min.y ≤ b.max.y) :
    ∃ s : Polygon K, b.toPolygon = .ok s ∧ s.verts.length = 4 ∧
      ∀ p : PyPoint K, (s.containsPoint eps p).1 = .ok (b.containsPoint p.toVec) := by
  have hnew := new_eq [b.min, ⟨b.min.x, b.max.y⟩, b.max, ⟨b.max.x, b.min.y⟩] (some true) none (by simp)
  refine ⟨_, hnew, rfl, ?_⟩
  intro p
  obtain ⟨⟨x0, y0⟩, ⟨x1, y1⟩⟩ := b
  simp only at hx hy
  unfold containsPoint
  simp only [List.length_cons, List.length_nil, cleared, Nat.reduceAdd, Nat.reduceEqDiff, if_false, show (3 < 4) from by decide, true_and, if_true]
  unfold Box.containsPoint
  simp only
  generalize p.toVec = q
  rcases lt_or_eq_of_le hy with hy | hy
  · rw [split_box hx hy]
    obtain ⟨s1, s2⟩ := ymono_spec (l := [⟨x0, y0⟩, (⟨x0, y1⟩ : Vec2 K)]) (r := [⟨x0, y0⟩, ⟨x1, y0⟩, ⟨x1, y1⟩, (⟨x0, y1⟩ : Vec2 K)])
      rfl rfl rfl rfl rfl rfl (by simp [hy.le]) (by simp [hy.le]) q
    simp only at s1 s2
    by_cases h : y0 < q.y ∧ q.y ≤ y1
    · obtain ⟨a, b', c, d, ⟨i, ha, hb⟩, h1, h2, ⟨j, hc, hd⟩, h3, h4, h5⟩ := s2 h.1 h.2
      rw [h5]
      have hab : crossX a b' q.y = x0 := by
        match i, ha, hb with
        | 0, ha, hb => simp at ha hb; subst ha hb; simp [crossX]
        | 1, ha, hb => simp at hb
        | i + 2, ha, hb => simp at hb
      have hcd : crossX c d q.y = x1 := by
        match j, hc, hd with
        | 0, hc, hd => simp at hc hd; subst hc hd; simp at h3 h4; linarith
        | 1, hc, hd => simp at hc hd; subst hc hd; simp [crossX]
        | 2, hc, hd => simp at hc hd; subst hc hd; simp at h3 h4; linarith
        | 3, hc, hd => simp at hd
        | j + 4, hc, hd => simp at hd
      rw [hab, hcd]
      simp [h.1, h.2]
    · rw [s1 h]
      congr 1
      symm
      rw [Bool.and_eq_false_iff]; right
      by_contra hc
      simp at hc
      exact h hc
  · subst hy
    obtain ⟨l, r, hs, hl, hr, hv⟩ := split_flat (y0 := y0) hx
    rw [hs]
    obtain ⟨ml, l', rfl⟩ := List.exists_cons_of_ne_nil hl
    obtain ⟨mr, r', rfl⟩ := List.exists_cons_of_ne_nil hr
    have e1 : ml.y = y0 := hv _ (by simp)
    have e2 : mr.y = y0 := hv _ (by simp)
    have e3 := hv ((ml :: l').getLast (by simp)) (by rw [List.mem_append]; exact Or.inl (List.getLast_mem _))
    have e4 := hv ((mr :: r').getLast (by simp)) (by rw [List.mem_append]; exact Or.inr (List.getLast_mem _))
    obtain ⟨s1, -⟩ := ymono_spec (l := ml :: l') (r := mr :: r') rfl (List.getLast?_eq_some_getLast (by simp)) rfl
      (List.getLast?_eq_some_getLast (by simp)) (by rw [e1, e2]) (by rw [e3, e4]) (fun v h => by rw [hv v h, e1])
      (fun v h => by rw [hv v h, e3]) q
    rw [e1, e3] at s1
    rw [s1 (fun h => absurd h.1 (not_lt.mpr h.2))]
    congr 1
    symm
    rw [Bool.and_eq_false_iff]; right
    by_contra hc
    simp at hc

/-- A proper box and an empty one, and the two answers. -/
example : (∃ s : Polygon ℚ, (⟨⟨1, 2⟩, ⟨4, 3⟩⟩ : Box ℚ).toPolygon = .ok s ∧
      (s.containsPoint (1/100000) (.tup 1 3)).1 = .ok true ∧ (s.containsPoint (1/100000) (.tup 4 3)).1 = .ok false) ∧
    ∃ s : Polygon ℚ, (⟨⟨1, 2⟩, ⟨4, 2⟩⟩ : Box ℚ).toPolygon = .ok s ∧ (s.containsPoint (1/100000) (.tup 2 2)).1 = .ok false :=
  ⟨⟨_, rfl, by decide +kernel, by decide +kernel⟩, ⟨_, rfl, by decide +kernel⟩⟩

end Planar
