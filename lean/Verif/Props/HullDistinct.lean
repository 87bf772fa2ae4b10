import Verif.Props.HullLine
/- Property C57: no vertex of a hull is listed twice. -/
set_option linter.unusedSectionVars false
namespace Planar.Hull
open Spec
variable {K : Type} [Field K] [LinearOrder K] [IsStrictOrderedRing K]

theorem popStack_sublist (p : Vec2 K) (st : List (Vec2 K)) : (popStack p st).Sublist st := by
  induction st with
  | nil => simp [popStack]
  | cons a st ih =>
    rcases st with _ | ⟨b, st⟩
    · simp [popStack]
    · rw [popStack_eq]
      split
      · exact ih.trans (List.sublist_cons_self _ _)
      · exact List.Sublist.refl _

theorem scan_sublist (l : List (Vec2 K)) : ∀ st : List (Vec2 K),
    (l.foldl (fun st p => p :: popStack p st) st).Sublist (l.reverse ++ st) := by
  induction l with
  | nil => intro st; simp
  | cons p l ih =>
    intro st
    rw [List.foldl_cons]
    refine (ih _).trans ?_
    rw [List.reverse_cons, List.append_assoc]
    exact List.Sublist.append_left (List.Sublist.cons_cons _ (popStack_sublist p st)) _

theorem sortPoints_nodup (pts : List (Vec2 K)) (p0 p1 : Vec2 K) (hn : pts.Nodup) (h0 : p0 ∉ pts) :
    (sortPoints pts p0 p1).Nodup := by
  simp only [sortPoints, List.foldl_append, List.foldl_cons, List.foldl_nil, List.tail_cons, List.nodup_reverse]
  have hp := pySorted_perm (fun a b => decide (lineOrder p0 p1 a < lineOrder p0 p1 b)) pts
  refine List.Nodup.sublist ((popStack_sublist p1 _).trans (scan_sublist _ [p0])) ?_
  rw [List.nodup_append]
  refine ⟨List.nodup_reverse.mpr (hp.nodup_iff.mpr hn), by simp, ?_⟩
  intro a ha b hb
  rw [List.mem_singleton] at hb
  rw [hb]
  rintro rfl
  exact h0 (hp.mem_iff.mp (List.mem_reverse.mp ha))

theorem splitPoints_nodup (pts : List (Vec2 K)) (P p0 p1 : Vec2 K) (hn : pts.Nodup) :
    let lr := splitPoints pts P p0 p1
    (lr.1 ++ P :: lr.2).Nodup ∧ (∀ v ∈ lr.1, v ∈ pts) ∧ ∀ v ∈ lr.2, v ∈ pts := by
  have hz : P - P = Vec2.null := by ext <;> simp
  intro lr
  simp only [lr, splitPoints]
  split
  · simp
  · simp only
    refine ⟨?_, fun v hv => (List.mem_filter.mp hv).1, fun v hv => (List.mem_filter.mp hv).1⟩
    rw [List.nodup_append]
    refine ⟨hn.filter _, List.nodup_cons.mpr ⟨?_, hn.filter _⟩, ?_⟩
    · intro hm
      have := (List.mem_filter.mp hm).2
      simp [hz, Vec2.dot] at this
    · intro a ha b hb hab
      subst hab
      have h1 := (List.mem_filter.mp ha).2
      rcases List.mem_cons.mp hb with rfl | hb
      · simp [hz, Vec2.dot] at h1
      · have h2 := (List.mem_filter.mp hb).2
        simp only [Bool.and_eq_true, Bool.not_eq_true', decide_eq_true_eq, decide_eq_false_iff_not] at h1 h2
        exact h2.1 h1

/-- A partition of distinct points, its first end not among them, appends distinct points. -/
theorem partition_nodup (n : Nat) : ∀ (pts : List (Vec2 K)) (p0 p1 : Vec2 K), pts.length ≤ n → pts.Nodup → p0 ∉ pts →
    ∀ h, partitionPoints pts p0 p1 = .ok h → h.Nodup := by
  induction n with
  | zero =>
    intro pts p0 p1 hn _ _ h he
    rw [partitionPoints_eq, List.eq_nil_of_length_eq_zero (Nat.le_zero.mp hn)] at he
    simp at he
  | succ n ih =>
    intro pts p0 p1 hn hnd h0 h he
    have hsub := partition_sub pts.length pts p0 p1 le_rfl h he
    rw [partitionPoints_eq] at he
    rcases hP : (pts.foldl (furthestStep p0 (p1.x - p0.x) (p1.y - p0.y)) (-1, none)).2 with _ | P
    · rw [hP] at he; simp at he
    · rw [hP] at he
      simp only at he
      have hs := splitPoints_nodup pts P p0 p1 hnd
      generalize splitPoints pts P p0 p1 = lr at he hs
      obtain ⟨L, R⟩ := lr
      simp only at he hs
      obtain ⟨hLR, hL, hR⟩ := hs
      rw [List.nodup_append] at hLR
      obtain ⟨nL, nR, dis⟩ := hLR
      obtain ⟨PR, nR⟩ := List.nodup_cons.mp nR
      have one : ∀ (Q : List (Vec2 K)) (q0 q1 : Vec2 K) (h : List (Vec2 K)),
          sideOf ((pts.length - L.length - R.length) * 4) Q q0 q1 = .ok h → Q.Nodup → q0 ∉ Q →
          (Q.length ≤ (pts.length - L.length - R.length) * 4 → 1 < Q.length → Q.length ≤ n) →
          h.Nodup ∧ ∃ t, h = q0 :: t ∧ ∀ v ∈ t, v ∈ Q := by
        intro Q q0 q1 h hq hQ hq0 hsz
        simp only [sideOf] at hq
        split at hq
        · simp at hq; subst hq; exact ⟨List.nodup_cons.mpr ⟨hq0, hQ⟩, Q, rfl, fun v hv => hv⟩
        · split at hq
          · rename_i hc
            exact ⟨ih Q q0 q1 (hsz hc.1 hc.2) hQ hq0 h hq, partition_sub n Q q0 q1 (hsz hc.1 hc.2) h hq⟩
          · simp at hq
            obtain ⟨X, -, h2, h3⟩ := sort_stack Q q0 q1
            exact ⟨hq ▸ sortPoints_nodup Q q0 q1 hQ hq0, X.reverse, by rw [← hq, h3],
              fun v hv => h2 v (List.mem_reverse.mp hv)⟩
      rcases h1 : sideOf ((pts.length - L.length - R.length) * 4) L p0 P with e | a
      · rw [h1] at he; simp [bind, Except.bind] at he
      · rcases h2 : sideOf ((pts.length - L.length - R.length) * 4) R P p1 with e | b
        · rw [h1, h2] at he; simp [bind, Except.bind] at he
        · rw [h1, h2] at he
          simp only [bind, Except.bind, pure, Except.pure, Except.ok.injEq] at he
          obtain ⟨na, t1, e1, m1⟩ := one L p0 P a h1 nL (fun hm => h0 (hL _ hm)) (by omega)
          obtain ⟨nb, t2, e2, m2⟩ := one R P p1 b h2 nR PR (by omega)
          subst he
          obtain ⟨t, et, mt⟩ := hsub
          rw [List.nodup_append]
          refine ⟨na, nb, ?_⟩
          intro x hx y hy hxy
          subst hxy
          rw [e1] at hx et
          rw [e2] at hy et
          have hyt : x ∈ t := by
            have : t = t1 ++ P :: t2 := by simpa using et.symm
            rw [this]; exact List.mem_append_right _ hy
          rcases List.mem_cons.mp hx with rfl | hx
          · exact h0 (mt _ hyt)
          · have hxL := m1 x hx
            rcases List.mem_cons.mp hy with rfl | hy
            · exact dis _ hxL _ List.mem_cons_self rfl
            · exact dis _ hxL _ (List.mem_cons_of_mem _ (m2 x hy)) rfl

/-- **C57** the hull lists no vertex twice, unless all the points have the same x (`C57_vertical` shows what happens
then), even when a sorted scan loses points. -/
theorem C57_nodup (order : List (Vec2 K) → List (Vec2 K)) (hord : ∀ l, (order l).Perm l) (points : List (Vec2 K))
    (hx : ∃ a ∈ points, ∃ b ∈ points, a.x ≠ b.x) (s : Polygon K) (h : convexHull order points = .ok s) :
    s.verts.Nodup := by
  have hq := convexHull_inv h
  have hne : points ≠ [] := by rintro rfl; simp [quickHull] at hq
  obtain ⟨L, R, up, lo, hL, hR, hLR, hup, hlo, nu, nl, -, heq⟩ := quick_start hord hne
  have hne' : L ≠ R := by
    rintro rfl
    obtain ⟨a, ha, b, hb, hab⟩ := hx
    have h1 := hLR a ha
    have h2 := hLR b hb
    exact hab (by linarith [h1.1, h1.2, h2.1, h2.2])
  rw [heq] at hq
  have part : ∀ (Q : List (Vec2 K)) (p0 p1 : Vec2 K) (h : List (Vec2 K)), Q.Nodup → p0 ∉ Q →
      startSide Q p0 p1 = .ok h → h.Nodup ∧ ∀ v ∈ h, v = p0 ∨ v ∈ Q := by
    intro Q p0 p1 h hQ h0 he
    rw [startSide] at he
    split at he
    · simp at he; subst he; simp
    · refine ⟨partition_nodup Q.length Q p0 p1 le_rfl hQ h0 h he, ?_⟩
      obtain ⟨t, rfl, ht⟩ := partition_sub Q.length Q p0 p1 le_rfl h he
      intro v hv
      rcases List.mem_cons.mp hv with rfl | hv
      · exact Or.inl rfl
      · exact Or.inr (ht v hv)
  rcases e1 : startSide up L R with e | h1
  · simp [e1, Except.bind] at hq
  · rcases e2 : startSide lo R L with e | h2
    · simp [e1, e2, Except.bind] at hq
    · simp only [e1, e2, Except.bind, Except.ok.injEq] at hq
      obtain ⟨n1, m1⟩ := part up L R h1 nu (fun hm => ((hup L).mp hm).2.2.1 rfl) e1
      obtain ⟨n2, m2⟩ := part lo R L h2 nl (fun hm => ((hlo R).mp hm).2.2.2 rfl) e2
      rw [← hq, List.nodup_append]
      refine ⟨n1, n2, ?_⟩
      intro x hx1 y hx2 hxy
      subst hxy
      rcases m1 x hx1 with rfl | hu <;> rcases m2 x hx2 with rfl | hl
      · exact hne' rfl
      · exact ((hlo _).mp hl).2.2.1 rfl
      · exact ((hup _).mp hu).2.2.2 rfl
      · have := ((hup _).mp hu).2.1
        have := ((hlo _).mp hl).2.1
        linarith

/-- Points given twice: the hull exists and has each of them once. -/
example : ∃ s, convexHull id ([⟨0, 0⟩, ⟨1, 3⟩, ⟨1, 3⟩, ⟨2, 0⟩, ⟨1, -1⟩, ⟨0, 0⟩, ⟨1, 1⟩] : List (Vec2 ℚ)) = .ok s ∧
    s.verts.Nodup := by
  obtain ⟨s, hs⟩ := C57_total id (fun _ => .refl _) ([⟨0, 0⟩, ⟨1, 3⟩, ⟨1, 3⟩, ⟨2, 0⟩, ⟨1, -1⟩, ⟨0, 0⟩, ⟨1, 1⟩] : List (Vec2 ℚ))
    (by
      intro h
      have := h ⟨0, 0⟩ (by simp) ⟨1, 3⟩ (by simp) ⟨2, 0⟩ (by simp)
      norm_num [side] at this)
  exact ⟨s, hs, C57_nodup id (fun _ => .refl _) _ ⟨⟨0, 0⟩, by simp, ⟨2, 0⟩, by simp, by norm_num⟩ s hs⟩

/-- **C57** the hull of a polygon not known to be convex is the hull of its vertices, that of a hull is a copy of it: asking
again changes nothing. -/
theorem C57_again (order : List (Vec2 K) → List (Vec2 K)) (points : List (Vec2 K)) (s : Polygon K)
    (h : convexHull order points = .ok s) :
    convexHullPoly order s = .ok s.copy ∧ s.copy.verts = s.verts ∧
    ∀ t : Polygon K, t.convex ≠ some true → t.verts = points → convexHullPoly order t = .ok s := by
  have hc : s.convex = some true := by
    have hq := h
    simp only [convexHull, bind, Except.bind] at hq
    split at hq
    · cases hq
    · rename_i vs _
      simp only [Polygon.new] at hq
      split_ifs at hq
      cases hq
      clear h
      by_cases h3 : 3 < vs.length
      · simp [Polygon.cleared, h3]
      · simp [Polygon.cleared, h3]
  refine ⟨(C57_copy order s hc).1, (C57_copy order s hc).2, ?_⟩
  intro t ht hv
  simp only [convexHullPoly, hv, beq_iff_eq, ht, if_false, h]

end Planar.Hull
