import Verif.Lemmas.HullRound
/- The quick hull is convex whatever the points, and which points it loses. -/
set_option linter.unusedSectionVars false
namespace Planar.Hull
open Spec Polygon
variable {K : Type} [Field K] [LinearOrder K] [IsStrictOrderedRing K]

section
variable {p0 p1 : Vec2 K}

/-- Strict clockwise turns at all the inner vertices of a stack, top first. -/
def Turns : List (Vec2 K) → Prop
  | c :: b :: a :: rest => side a b c < 0 ∧ Turns (b :: a :: rest)
  | _ => True

theorem Turns.tail {a : Vec2 K} {l : List (Vec2 K)} (h : Turns (a :: l)) : Turns l := by
  rcases l with _ | ⟨b, _ | ⟨c, l⟩⟩
  · trivial
  · trivial
  · exact h.2

theorem turns_push (p : Vec2 K) (st : List (Vec2 K)) (h : Turns st) : Turns (p :: popStack p st) := by
  induction st with
  | nil => trivial
  | cons v1 st ih =>
    rcases st with _ | ⟨v0, rest⟩
    · trivial
    · rw [popStack_eq]
      split
      · exact ih h.tail
      · rename_i hs; exact ⟨not_le.mp hs, h⟩

theorem turns_fold (l : List (Vec2 K)) : ∀ st : List (Vec2 K), Turns st → Turns (l.foldl (fun st p => p :: popStack p st) st) := by
  induction l with
  | nil => intro st h; exact h
  | cons p l ih => intro st h; exact ih _ (turns_push p st h)

/-- A path that does not go backwards and always turns clockwise: so do all its triples. -/
theorem triples (hT : 0 < lineOrder p0 p1 p1) (l : List (Vec2 K)) :
    l.Pairwise (fun b a => lineOrder p0 p1 a ≤ lineOrder p0 p1 b) → Turns l →
    ∀ c b a, [c, b, a].Sublist l → side a b c < 0 := by
  induction l with
  | nil => intro _ _ c b a h; simp at h
  | cons d l ih =>
    intro hp ht
    rw [List.pairwise_cons] at hp
    have ih' := ih hp.2 ht.tail
    -- the first is the top
    have key : ∀ b a, [b, a].Sublist l → side a b d < 0 := by
      rcases l with _ | ⟨e, _ | ⟨f, l⟩⟩
      · intro b a h; simp at h
      · intro b a h; have := h.length_le; simp at this
      · obtain ⟨t1, -⟩ := ht
        have hq := hp.2
        rw [List.pairwise_cons] at hq
        have hd := hp.1 e (by simp)
        have first : ∀ a ∈ f :: l, side a e d < 0 := by
          intro a ha
          rcases List.mem_cons.mp ha with rfl | ha'
          · exact t1
          · have h3 := ih' e f a (by simpa using ha')
            have hfa : lineOrder p0 p1 a ≤ lineOrder p0 p1 f := (List.pairwise_cons.mp hq.2).1 a ha'
            exact (turn3 hT hfa (hq.1 f (by simp)) hd h3 t1).2
        intro b a h
        rcases List.sublist_cons_iff.mp h with h | ⟨r, hr, h⟩
        · have h3 := ih' e b a (h.cons₂ e)
          have hb : b ∈ f :: l := h.subset (by simp)
          have hab : lineOrder p0 p1 a ≤ lineOrder p0 p1 b := by
            have := hq.2.sublist h
            simpa using this
          exact (turn3 hT hab (hq.1 b hb) hd h3 (first b hb)).1
        · simp only [List.cons.injEq] at hr
          obtain ⟨rfl, rfl⟩ := hr
          exact first a (by simpa using h)
    intro c b a h
    rcases List.sublist_cons_iff.mp h with h | ⟨r, hr, h⟩
    · exact ih' c b a h
    · simp only [List.cons.injEq] at hr
      obtain ⟨rfl, rfl⟩ := hr
      exact key b a h

/-- The two ends of the base are on the right of all the chords of the chain. -/
theorem chord_ends (hT : 0 < lineOrder p0 p1 p1) {X : List (Vec2 K)}
    (hp : X.Pairwise (fun b a => lineOrder p0 p1 a ≤ lineOrder p0 p1 b)) (ht : Turns (p1 :: (X ++ [p0])))
    (hY : ∀ v ∈ X, 0 < side p0 p1 v) {u v : Vec2 K} (huv : [v, u].Sublist X) :
    side u v p0 ≤ 0 ∧ side u v p1 ≤ 0 := by
  have hTX : Turns (X ++ [p0]) := ht.tail
  have takeTurns : ∀ (l : List (Vec2 K)) (q : Vec2 K), Turns (l ++ [q]) → Turns l := by
    intro l q
    induction l with
    | nil => intro _; trivial
    | cons a l ih =>
      intro h
      have := ih h.tail
      rcases l with _ | ⟨b, _ | ⟨c, l⟩⟩
      · trivial
      · trivial
      · exact ⟨h.1, this⟩
  have tri := triples hT X hp (takeTurns X p0 hTX)
  have hu : u ∈ X := huv.subset (by simp)
  have hv : v ∈ X := huv.subset (by simp)
  have hle : lineOrder p0 p1 u ≤ lineOrder p0 p1 v := by
    have := hp.sublist huv
    simpa using this
  obtain ⟨vk, X', hX⟩ : ∃ vk X', X = vk :: X' := by
    rcases X with _ | ⟨a, X⟩
    · simp at hu
    · exact ⟨a, X, rfl⟩
  obtain ⟨v1, X'', hX2⟩ : ∃ v1 X'', X = X'' ++ [v1] := by
    rcases List.eq_nil_or_concat X with h | ⟨l, a, h⟩
    · rw [h] at hu; simp at hu
    · exact ⟨a, l, by simpa using h⟩
  have hvkmax : ∀ x ∈ X, lineOrder p0 p1 x ≤ lineOrder p0 p1 vk := by
    intro x hx
    rw [hX] at hx hp
    rcases List.mem_cons.mp hx with rfl | hx
    · exact le_rfl
    · exact (List.pairwise_cons.mp hp).1 x hx
  have hv1min : ∀ x ∈ X, lineOrder p0 p1 v1 ≤ lineOrder p0 p1 x := by
    intro x hx
    rw [hX2] at hx hp
    rcases List.mem_append.mp hx with hx | hx
    · exact (List.pairwise_append.mp hp).2.2 x hx v1 (by simp)
    · rw [List.mem_singleton.mp hx]
  -- the height of the chord over the base, times its width
  obtain ⟨A, hA⟩ : ∃ A : K → K, A = fun x => (lineOrder p0 p1 v - lineOrder p0 p1 u) * side p0 p1 u +
      (side p0 p1 v - side p0 p1 u) * (x - lineOrder p0 p1 u) := ⟨_, rfl⟩
  have Aline : ∀ x y z, A x * (z - y) = A y * (z - x) + A z * (x - y) := by intro x y z; rw [hA]; ring
  have Abetween : ∀ y x z, 0 ≤ A y → 0 ≤ A z → y ≤ x → x ≤ z → 0 ≤ A x := by
    intro y x z h1 h2 h3 h4
    rcases (h3.trans h4).eq_or_lt with e | hlt
    · have : x = y := le_antisymm (h4.trans e.ge) h3
      rw [this]; exact h1
    · have := Aline x y z
      by_contra hc
      push Not at hc
      have n1 := mul_neg_of_neg_of_pos hc (sub_pos.mpr hlt)
      have n2 := mul_nonneg h1 (sub_nonneg.mpr h4)
      have n3 := mul_nonneg h2 (sub_nonneg.mpr h3)
      linarith
  have Aright : ∀ w, side u v w ≤ 0 → 0 ≤ side p0 p1 w → 0 ≤ A (lineOrder p0 p1 w) := by
    intro w hw h0
    have h1 := mul_nonpos_of_nonneg_of_nonpos hT.le hw
    rw [side_coords] at h1
    have h2 := mul_nonneg (sub_nonneg.mpr hle) h0
    rw [hA]
    simp only
    linarith
  have back : ∀ w, side p0 p1 w = 0 → 0 ≤ A (lineOrder p0 p1 w) → side u v w ≤ 0 := by
    intro w hw h
    by_contra hc
    push Not at hc
    have h1 := mul_pos hT hc
    rw [side_coords, hw] at h1
    rw [hA] at h
    simp only at h
    linarith
  have z0 : side p0 p1 p0 = 0 := side_start _ _
  have z1 : side p0 p1 p1 = 0 := side_end _ _
  have Au : 0 ≤ A (lineOrder p0 p1 u) := Aright u (side_start _ _).le (hY u hu).le
  have Av : 0 ≤ A (lineOrder p0 p1 v) := Aright v (side_end _ _).le (hY v hv).le
  have Ak : 0 ≤ A (lineOrder p0 p1 vk) := by
    rw [hX] at huv
    rcases List.sublist_cons_iff.mp huv with h | ⟨r, hr, h⟩
    · exact Aright vk (tri vk v u (by rw [hX]; exact h.cons₂ vk)).le (hY vk (by rw [hX]; simp)).le
    · simp only [List.cons.injEq] at hr
      rw [← hr.1]; exact Av
  have A1 : 0 ≤ A (lineOrder p0 p1 v1) := by
    have cyc : side u v v1 = side v1 u v := by simp only [side]; ring
    have hsub : [v, u].Sublist (X'' ++ [v1]) := hX2 ▸ huv
    by_cases e : u = v1
    · rw [← e]; exact Au
    · rcases List.sublist_append_iff.mp hsub with ⟨l1, l2, hl, h1, h2⟩
      have h2' : l2 = [] ∨ l2 = [v1] := by
        rcases l2 with _ | ⟨x, _ | ⟨y, l2⟩⟩
        · exact Or.inl rfl
        · have := h2.subset (List.mem_singleton.mpr rfl)
          exact Or.inr (by rw [List.mem_singleton.mp this])
        · have := h2.length_le; simp at this
      rcases h2' with rfl | rfl
      · rw [List.append_nil] at hl
        have h3 : [v, u, v1].Sublist X := by
          rw [hX2]
          have : [v, u, v1] = [v, u] ++ [v1] := rfl
          rw [this, hl]
          exact h1.append (List.Sublist.refl _)
        exact Aright v1 (by rw [cyc]; exact (tri v u v1 h3).le) (hY v1 (by rw [hX2]; simp)).le
      · exfalso
        have : [v, u].getLast? = (l1 ++ [v1]).getLast? := by rw [hl]
        simp at this
        exact e this
  have R0 : 0 ≤ lineOrder p0 p1 v1 → side u v p0 < 0 := by
    intro h
    have hp' : (X ++ [p0]).Pairwise (fun b a => lineOrder p0 p1 a ≤ lineOrder p0 p1 b) := by
      rw [List.pairwise_append]
      refine ⟨hp, by simp, ?_⟩
      intro a ha b hb
      rw [List.mem_singleton.mp hb, order_start]
      exact h.trans (hv1min a ha)
    have := triples hT _ hp' hTX v u p0 (by
      have e : [v, u, p0] = [v, u] ++ [p0] := rfl
      rw [e]; exact huv.append (List.Sublist.refl _))
    have cyc : side u v p0 = side p0 u v := by simp only [side]; ring
    rw [cyc]; exact this
  have R1 : lineOrder p0 p1 vk ≤ lineOrder p0 p1 p1 → side u v p1 < 0 := by
    intro h
    have hp' : (p1 :: X).Pairwise (fun b a => lineOrder p0 p1 a ≤ lineOrder p0 p1 b) := by
      rw [List.pairwise_cons]
      exact ⟨fun a ha => (hvkmax a ha).trans h, hp⟩
    exact triples hT _ hp' (takeTurns (p1 :: X) p0 ht) p1 v u (huv.cons₂ p1)
  have S0 : 0 ≤ lineOrder p0 p1 v → 0 ≤ A 0 := by
    intro h
    rcases le_or_gt 0 (lineOrder p0 p1 v1) with h1 | h1
    · have := Aright p0 (R0 h1).le z0.ge
      rwa [order_start] at this
    · exact Abetween _ _ _ A1 Av h1.le h
  have S1 : lineOrder p0 p1 u ≤ lineOrder p0 p1 p1 → 0 ≤ A (lineOrder p0 p1 p1) := by
    intro h
    rcases le_or_gt (lineOrder p0 p1 vk) (lineOrder p0 p1 p1) with h1 | h1
    · exact Aright p1 (R1 h1).le z1.ge
    · exact Abetween _ _ _ Au Ak h h1.le
  constructor
  · apply back p0 z0
    rw [order_start]
    rcases le_or_gt 0 (lineOrder p0 p1 v) with h | h
    · exact S0 h
    · exact Abetween _ _ _ Av (S1 (by linarith)) h.le hT.le
  · apply back p1 z1
    rcases le_or_gt (lineOrder p0 p1 u) (lineOrder p0 p1 p1) with h | h
    · exact S1 h
    · exact Abetween _ _ _ (S0 (by linarith)) Au hT.le h.le

theorem pairs_cut (st : List (Vec2 K)) : ∀ e ∈ pairs st, ∃ l r, st = l ++ e.2 :: e.1 :: r := by
  induction st with
  | nil => intro e he; simp [pairs] at he
  | cons b st ih =>
    intro e he
    rcases st with _ | ⟨a, rest⟩
    · simp [pairs] at he
    · rw [pairs] at he
      rcases List.mem_cons.mp he with rfl | he
      · exact ⟨[], rest, rfl⟩
      · obtain ⟨l, r, h⟩ := ih e he
        exact ⟨b :: l, r, by rw [h]; rfl⟩

/-- Members of a list next to a cut. -/
theorem sub_cut {l r : List (Vec2 K)} {b a v : Vec2 K} (h : v ∈ l ++ b :: a :: r) :
    [v, b, a].Sublist (l ++ b :: a :: r) ∨ v = b ∨ v = a ∨ [b, a, v].Sublist (l ++ b :: a :: r) := by
  rcases List.mem_append.mp h with h | h
  · left
    have e : [v, b, a] = [v] ++ [b, a] := rfl
    rw [e]
    exact (List.singleton_sublist.mpr h).append (by simp)
  · rcases List.mem_cons.mp h with h | h
    · exact Or.inr (Or.inl h)
    · rcases List.mem_cons.mp h with h | h
      · exact Or.inr (Or.inr (Or.inl h))
      · refine Or.inr (Or.inr (Or.inr (List.Sublist.trans ?_ (List.sublist_append_right _ _))))
        simpa using h

/-- The sorted scan always builds a convex chain. -/
theorem scan_convex {pts : List (Vec2 K)} (hpos : ∀ p ∈ pts, 0 < side p0 p1 p) (hne : pts ≠ []) :
    ∃ t, sortPoints pts p0 p1 = p0 :: t ∧ (∀ v ∈ t, v ∈ pts) ∧
      ∀ e ∈ edgesFrom p0 (t ++ [p1]), ∀ v ∈ p0 :: (t ++ [p1]), side e.1 e.2 v ≤ 0 := by
  have hT : 0 < lineOrder p0 p1 p1 := by
    apply order_end_pos
    rintro rfl
    obtain ⟨p, hp⟩ := List.exists_mem_of_ne_nil _ hne
    have := hpos p hp
    simp [side] at this
  obtain ⟨sorted, hsort⟩ : ∃ l, l = pySorted (fun a b => decide (lineOrder p0 p1 a < lineOrder p0 p1 b)) pts := ⟨_, rfl⟩
  have hpw : sorted.Pairwise (fun a b => lineOrder p0 p1 a ≤ lineOrder p0 p1 b) := by
    rw [hsort]
    have := pySorted_pairwise (lt := fun a b => decide (lineOrder p0 p1 a < lineOrder p0 p1 b))
      (by intro a b c; simp only [decide_eq_false_iff_not, not_lt]; exact fun h1 h2 => h1.trans h2)
      (by intro a b; simp only [decide_eq_false_iff_not, not_lt]; exact le_total _ _) pts
    exact this.imp (by intro a b hab; simpa using hab)
  obtain ⟨X, hX, hXs, hsp⟩ := sort_stack pts p0 p1
  rw [← hsort] at hX
  have hturn : Turns (p1 :: (X ++ [p0])) := by
    rw [← hX]; exact turns_fold _ _ trivial
  have popSub : ∀ (p : Vec2 K) (st : List (Vec2 K)), (popStack p st).Sublist st := by
    intro p st
    induction st with
    | nil => simp [popStack]
    | cons a st ih =>
      rcases st with _ | ⟨b, st⟩
      · simp [popStack]
      · rw [popStack_eq]
        split
        · exact ih.cons a
        · exact List.Sublist.refl _
  have foldSub : ∀ (l st : List (Vec2 K)), (l.foldl (fun st p => p :: popStack p st) st).Sublist (l.reverse ++ st) := by
    intro l
    induction l with
    | nil => intro st; simp
    | cons p l ih =>
      intro st
      rw [List.foldl_cons, List.reverse_cons, List.append_assoc]
      exact (ih _).trans (List.Sublist.append (List.Sublist.refl _) ((popSub p st).cons₂ p))
  have hXsub : X.Sublist sorted.reverse := by
    have h1 := foldSub (sorted ++ [p1]) [p0]
    rw [hX, List.reverse_append] at h1
    simp only [List.reverse_cons, List.reverse_nil, List.nil_append, List.cons_append, List.cons_sublist_cons] at h1
    exact (List.append_sublist_append_right _).mp h1
  have hp : X.Pairwise (fun b a => lineOrder p0 p1 a ≤ lineOrder p0 p1 b) :=
    (List.pairwise_reverse.mpr hpw).sublist hXsub
  have hY : ∀ v ∈ X, 0 < side p0 p1 v := fun v hv => hpos v (hXs v hv)
  refine ⟨X.reverse, hsp, fun v hv => hXs v (List.mem_reverse.mp hv), ?_⟩
  intro e he w hw
  obtain ⟨a, b⟩ := e
  have cyc : ∀ a b c : Vec2 K, side a b c = side c a b := by intro a b c; simp only [side]; ring
  have flip : ∀ a b c : Vec2 K, side a b c = -side a c b := by intro a b c; simp only [side]; ring
  have hw' : w = p0 ∨ w ∈ X ∨ w = p1 := by
    simp at hw; tauto
  obtain ⟨l, r, hcut⟩ := pairs_cut _ _ (path_pairs (p1 :: (X ++ [p0])) (X.reverse ++ [p1]) (by simp) _ he)
  simp only at hcut ⊢
  have ends := fun u v (h : [v, u].Sublist X) => chord_ends hT hp hturn hY h
  -- triples inside
  have takeTurns : ∀ (l : List (Vec2 K)) (q : Vec2 K), Turns (l ++ [q]) → Turns l := by
    intro l q
    induction l with
    | nil => intro _; trivial
    | cons a l ih =>
      intro h
      have := ih h.tail
      rcases l with _ | ⟨b, _ | ⟨c, l⟩⟩
      · trivial
      · trivial
      · exact ⟨h.1, this⟩
  have tri := triples hT X hp (takeTurns X p0 hturn.tail)
  rcases l with _ | ⟨c, l⟩
  · -- the edge into `p1`
    simp only [List.nil_append, List.cons.injEq] at hcut
    obtain ⟨rfl, hcut⟩ := hcut
    rcases X with _ | ⟨vk, X⟩
    · simp only [List.nil_append, List.cons.injEq] at hcut
      obtain ⟨rfl, -⟩ := hcut
      rcases hw' with rfl | h | rfl
      · rw [side_start]
      · simp at h
      · rw [side_end]
    · simp only [List.cons_append, List.cons.injEq] at hcut
      obtain ⟨rfl, -⟩ := hcut
      rcases hw' with rfl | h | rfl
      · rw [cyc, flip]; have := hY vk (by simp); linarith
      · rcases List.mem_cons.mp h with rfl | h
        · rw [side_start]
        · rw [cyc]; exact (ends w vk (by simpa using h)).2
      · rw [side_end]
  · simp only [List.cons_append, List.cons.injEq] at hcut
    obtain ⟨rfl, hcut⟩ := hcut
    rcases List.eq_nil_or_concat r with rfl | ⟨r', q, rfl⟩
    · have hcut' : X ++ [p0] = (l ++ [b]) ++ [a] := by rw [hcut]; simp
      obtain ⟨hXl, h0⟩ := List.append_inj' hcut' rfl
      obtain rfl : p0 = a := by simpa using h0
      rcases hw' with rfl | h | rfl
      · rw [side_start]
      · rw [hXl] at h
        rcases List.mem_append.mp h with h | h
        · have h2 : [w, b].Sublist X := by
            rw [hXl]
            exact (List.singleton_sublist.mpr h).append (List.Sublist.refl [b])
          rw [← cyc]; exact (ends b w h2).1
        · rw [List.mem_singleton.mp h, side_end]
      · rw [flip]; have := hY b (by rw [hXl]; simp); linarith
    · have hcut' : X ++ [p0] = (l ++ b :: a :: r') ++ [q] := by rw [hcut]; simp
      obtain ⟨hXl, -⟩ := List.append_inj' hcut' rfl
      have hba : [b, a].Sublist X := by
        rw [hXl]; exact List.Sublist.trans (by simp) (List.sublist_append_right l (b :: a :: r'))
      rcases hw' with rfl | h | rfl
      · exact (ends a b hba).1
      · rw [hXl] at h
        rcases sub_cut h with h | rfl | rfl | h
        · rw [← hXl] at h; exact (tri w b a h).le
        · rw [side_end]
        · rw [side_start]
        · rw [← hXl] at h; rw [cyc]; exact (tri b a w h).le
      · exact (ends a b hba).2

end

/-! ### the partition -/

theorem edgesFrom_start (p0 p1 : Vec2 K) (t : List (Vec2 K)) : ∀ e ∈ edgesFrom p0 (t ++ [p1]), e.1 = p0 ∨ e.1 ∈ t := by
  induction t generalizing p0 with
  | nil => intro e he; simp at he; left; rw [he]
  | cons a t ih =>
    intro e he
    rw [List.cons_append, edgesFrom_cons] at he
    rcases List.mem_cons.mp he with rfl | he
    · exact Or.inl rfl
    · rcases ih a e he with h | h
      · right; rw [h]; exact List.mem_cons_self
      · exact Or.inr (List.mem_cons_of_mem _ h)

/-- A convex chain from `p0` to `p1`, with everything behind the base on its right. -/
def SubChain (S pts : List (Vec2 K)) (p0 p1 : Vec2 K) (h : List (Vec2 K)) : Prop :=
  ∃ t, h = p0 :: t ∧ (∀ v ∈ t, v ∈ pts) ∧ (∀ e ∈ edgesFrom p0 (t ++ [p1]), (∀ v ∈ p0 :: (t ++ [p1]), side e.1 e.2 v ≤ 0) ∧
    ∀ s ∈ S, side p0 p1 s ≤ 0 → side e.1 e.2 s ≤ 0) ∧ ((∀ v ∈ t, 0 < side p0 p1 v) ∨ ∀ s ∈ S, side p0 p1 s ≤ 0)

/-- A convex chain on the left of its base has everything behind the base on its right. -/
theorem chain_behind {S pts t : List (Vec2 K)} {p0 p1 : Vec2 K} (h : Ctx S pts p0 p1) (hne : pts ≠ []) (ht : ∀ v ∈ t, v ∈ pts)
    (hpos : ∀ v ∈ t, 0 < side p0 p1 v) {e : Vec2 K × Vec2 K} (he : e ∈ edgesFrom p0 (t ++ [p1]))
    (hconv : ∀ v ∈ p0 :: (t ++ [p1]), side e.1 e.2 v ≤ 0) {s : Vec2 K} (hs : s ∈ S) (hps : side p0 p1 s ≤ 0) :
    side e.1 e.2 s ≤ 0 := by
  have hst := edgesFrom_start p0 p1 t e he
  have hem := (edgesFrom_mem he).2
  have h3 := hconv p1 (by simp)
  have h4 := hconv p0 (by simp)
  obtain ⟨a, b⟩ := e
  simp only at *
  rcases List.mem_append.mp hem with hb | hb
  · have S1 : side p0 b s ≤ 0 := behind0 (h.left hne) (h.sub b (ht b hb)) hs (hpos b hb) hps
    rcases hst with rfl | ha
    · exact S1
    · have S2 : side a p1 s ≤ 0 := behind1 (h.right hne) (h.sub a (ht a ha)) hs (hpos a ha) hps
      refine side_quad ?_ S1 S2 h3 h4
      have e1 : (b.x - p0.x) * (p1.y - a.y) - (b.y - p0.y) * (p1.x - a.x) = side a b p0 - side p0 p1 b := by
        simp only [side]; ring
      have := hpos b hb
      linarith
  · rw [List.mem_singleton.mp hb]
    rcases hst with rfl | ha
    · exact hps
    · exact behind1 (h.right hne) (h.sub a (ht a ha)) hs (hpos a ha) hps

/-- What the two sides of a partition are given. -/
theorem ctx_split {S pts L R : List (Vec2 K)} {p0 p1 P : Vec2 K} (hc : Ctx S pts p0 p1) (hne : pts ≠ []) (hPm : P ∈ pts)
    (hmax : ∀ p ∈ pts, side p0 p1 p ≤ side p0 p1 P) (hD : 0 < side p0 p1 P)
    (hL : L = pts.filter fun p => decide (0 < side p0 P p))
    (hR : R = pts.filter fun p => !(decide (0 < side p0 P p)) && decide (0 < side P p1 p)) :
    Ctx S L p0 P ∧ Ctx S R P p1 ∧ (∀ p, p ∈ L ↔ p ∈ pts ∧ 0 < side p0 P p) ∧
    (∀ p, p ∈ R ↔ p ∈ pts ∧ ¬ 0 < side p0 P p ∧ 0 < side P p1 p) ∧
    ∀ s ∈ S, (0 < side p0 P s → 0 < side p0 p1 s) ∧ (0 < side P p1 s → 0 < side p0 p1 s) := by
  have hPS := hc.sub P hPm
  have hmaxS : ∀ s ∈ S, side p0 p1 s ≤ side p0 p1 P := by
    intro s hs
    rcases lt_or_ge 0 (side p0 p1 s) with h | h
    · exact hmax s (hc.all s hs h)
    · exact h.trans hD.le
  have memL : ∀ p, p ∈ L ↔ p ∈ pts ∧ 0 < side p0 P p := by intro p; rw [hL, List.mem_filter]; simp
  have memR : ∀ p, p ∈ R ↔ p ∈ pts ∧ ¬ 0 < side p0 P p ∧ 0 < side P p1 p := by
    intro p; rw [hR, List.mem_filter]; simp
  have hsum : ∀ s : Vec2 K, side p0 P s + side P p1 s = side p0 p1 s - side p0 p1 P := by
    intro s; simp only [side]; ring
  have strict : ∀ s ∈ S, (0 < side p0 P s → 0 < side p0 p1 s) ∧ (0 < side P p1 s → 0 < side p0 p1 s) := by
    intro s hs
    constructor
    · intro h
      by_contra hcon
      push Not at hcon
      have := behind0 (hc.left hne) hPS hs hD hcon
      linarith
    · intro h
      by_contra hcon
      push Not at hcon
      have := behind1 (hc.right hne) hPS hs hD hcon
      linarith
  refine ⟨?_, ?_, memL, memR, strict⟩
  · refine ⟨hc.h0, hPS, fun p hp => hc.sub p ((memL p).mp hp).1, fun p hp => ((memL p).mp hp).2.le, ?_, ?_, ?_, ?_⟩
    · intro p hp h
      have := ((memL p).mp hp).2
      rw [h] at this
      exact absurd this (lt_irrefl _)
    · intro s hs h
      exact (memL s).mpr ⟨hc.all s hs ((strict s hs).1 h), h⟩
    · intro h
      obtain ⟨l, hl⟩ := List.exists_mem_of_ne_nil _ h
      obtain ⟨h1, h2⟩ := (memL l).mp hl
      exact support_left (hc.left hne) (hc.sub l h1) hD ((strict l (hc.sub l h1)).1 h2) h2
    · intro _; exact (support_far hmaxS hD).1
  · refine ⟨hPS, hc.h1, fun p hp => hc.sub p ((memR p).mp hp).1, fun p hp => ((memR p).mp hp).2.2.le, ?_, ?_, ?_, ?_⟩
    · intro p hp h
      have := ((memR p).mp hp).2.2
      rw [h] at this
      exact absurd this (lt_irrefl _)
    · intro s hs h
      refine (memR s).mpr ⟨hc.all s hs ((strict s hs).2 h), ?_, h⟩
      have := hsum s
      have := hmaxS s hs
      intro h'
      linarith
    · intro _; exact (support_far hmaxS hD).2
    · intro h
      obtain ⟨l, hl⟩ := List.exists_mem_of_ne_nil _ h
      obtain ⟨h1, -, h2⟩ := (memR l).mp hl
      exact support_right (hc.right hne) (hc.sub l h1) hD ((strict l (hc.sub l h1)).2 h2) h2

/-- A partition with all its points on the left builds a convex chain, whatever the sorted scans lose. -/
theorem partition_convex {S : List (Vec2 K)} (n : Nat) : ∀ (pts : List (Vec2 K)) (p0 p1 : Vec2 K), pts.length ≤ n →
    pts ≠ [] → Ctx S pts p0 p1 → ∃ h, partitionPoints pts p0 p1 = .ok h ∧ SubChain S pts p0 p1 h := by
  induction n with
  | zero => intro pts p0 p1 hn hne; exact absurd (List.eq_nil_of_length_eq_zero (Nat.le_zero.mp hn)) hne
  | succ n ih =>
    intro pts p0 p1 hn hne hc
    obtain ⟨P, hPm, hP, hmax⟩ := furthest_spec hne hc.pos
    rw [partitionPoints_eq, hP]
    simp only
    have hPS := hc.sub P hPm
    rcases (hc.pos P hPm).eq_or_lt with hD | hD
    · -- all the points are on the line
      rw [splitPoints_zero pts hD.symm]
      have hall : ∀ s ∈ S, side p0 p1 s ≤ 0 := by
        intro s hs
        by_contra h
        push Not at h
        have := hmax s (hc.all s hs h)
        linarith
      refine ⟨[p0, P], by simp [sideOf, bind, Except.bind, pure, Except.pure], [P], rfl, by simpa using hPm, ?_, Or.inr hall⟩
      obtain ⟨τ, g0, g1, gx, gy⟩ := hc.on P hPm hD.symm
      simp only at gx gy
      intro e he
      have right : ∀ s, side p0 p1 s ≤ 0 → side e.1 e.2 s ≤ 0 := by
        intro s hs
        simp only [List.cons_append, List.nil_append, edgesFrom_cons, edgesFrom_nil, List.mem_cons, List.not_mem_nil, or_false] at he
        rcases he with rfl | rfl
        · have : side p0 P s = τ * side p0 p1 s := by simp only [side]; rw [gx, gy]; ring
          rw [this]; exact mul_nonpos_of_nonneg_of_nonpos g0 hs
        · have : side P p1 s = (1 - τ) * side p0 p1 s := by simp only [side]; rw [gx, gy]; ring
          rw [this]; exact mul_nonpos_of_nonneg_of_nonpos (by linarith) hs
      refine ⟨?_, fun s _ h => right s h⟩
      intro v hv
      apply right
      simp only [List.cons_append, List.nil_append, List.mem_cons, List.not_mem_nil, or_false] at hv
      rcases hv with rfl | rfl | rfl
      · exact hall _ hc.h0
      · exact hall _ hPS
      · exact hall _ hc.h1
    · have hsplit := splitPoints_pos pts hD
      obtain ⟨L, hL⟩ : ∃ L, L = pts.filter fun p => decide (0 < side p0 P p) := ⟨_, rfl⟩
      obtain ⟨R, hR⟩ : ∃ R, R = pts.filter fun p => !(decide (0 < side p0 P p)) && decide (0 < side P p1 p) := ⟨_, rfl⟩
      rw [← hL, ← hR] at hsplit
      rw [hsplit]
      simp only
      obtain ⟨ctxL, ctxR, memL, memR, strict⟩ := ctx_split hc hne hPm hmax hD hL hR
      have hsum : ∀ s : Vec2 K, side p0 P s + side P p1 s = side p0 p1 s - side p0 p1 P := by
        intro s; simp only [side]; ring
      have child : ∀ (Q : List (Vec2 K)) (q0 q1 : Vec2 K), Ctx S Q q0 q1 → (∀ p ∈ Q, 0 < side q0 q1 p) →
          (Q.length ≤ (pts.length - L.length - R.length) * 4 → 1 < Q.length → Q.length ≤ n) →
          ∃ h, sideOf ((pts.length - L.length - R.length) * 4) Q q0 q1 = .ok h ∧ SubChain S Q q0 q1 h := by
        intro Q q0 q1 hcQ hposQ hsz
        simp only [sideOf]
        split
        · rename_i hle
          rcases Q with _ | ⟨l, _ | ⟨m, Q⟩⟩
          · have hall : ∀ s ∈ S, side q0 q1 s ≤ 0 := by
              intro s hs
              by_contra h
              push Not at h
              have := hcQ.all s hs h
              simp at this
            refine ⟨_, rfl, [], rfl, by simp, ?_, Or.inr hall⟩
            intro e he
            simp only [List.nil_append, edgesFrom_cons, edgesFrom_nil, List.mem_singleton] at he
            subst he
            refine ⟨?_, fun s _ h => h⟩
            intro v hv
            simp only [List.nil_append, List.mem_cons, List.not_mem_nil, or_false] at hv
            rcases hv with rfl | rfl
            · exact (side_start _ _).le
            · exact (side_end _ _).le
          · obtain ⟨t, h1, h2, h3, -, h4⟩ := subHull_one hcQ (hposQ l (by simp))
            refine ⟨_, rfl, t, h1, h3, ?_, h4⟩
            intro e he
            have hsub : ∀ v ∈ q0 :: (t ++ [q1]), v ∈ S := by
              intro v hv
              rcases List.mem_cons.mp hv with rfl | hv
              · exact hcQ.h0
              · rcases List.mem_append.mp hv with hv | hv
                · exact hcQ.sub v (h3 v hv)
                · rw [List.mem_singleton.mp hv]; exact hcQ.h1
            exact ⟨fun v hv => h2 e he v (hsub v hv), fun s hs _ => h2 e he s hs⟩
          · simp at hle
        · rename_i hle
          have hQne : Q ≠ [] := by rintro rfl; simp at hle
          split
          · rename_i hcond
            exact ih Q q0 q1 (hsz hcond.1 hcond.2) hQne hcQ
          · obtain ⟨t, h1, h2, h3⟩ := scan_convex hposQ hQne
            refine ⟨_, rfl, t, h1, h2, ?_, Or.inl fun v hv => hposQ v (h2 v hv)⟩
            intro e he
            exact ⟨h3 e he, fun s hs h => chain_behind hcQ hQne h2 (fun v hv => hposQ v (h2 v hv)) he (h3 e he) hs h⟩
      obtain ⟨h1, e1, t1, rfl, b1, a1, -⟩ := child L p0 P ctxL (fun p hp => ((memL p).mp hp).2) (by omega)
      obtain ⟨h2, e2, t2, rfl, b2, a2, -⟩ := child R P p1 ctxR (fun p hp => ((memR p).mp hp).2.2) (by omega)
      have z1 : side p0 P p1 < 0 := by
        have : side p0 P p1 = -side p0 p1 P := by simp only [side]; ring
        linarith
      have z2 : side P p1 p0 < 0 := by
        have : side P p1 p0 = -side p0 p1 P := by simp only [side]; ring
        linarith
      refine ⟨p0 :: t1 ++ P :: t2, by rw [e1, e2]; rfl, t1 ++ P :: t2, rfl, ?_, ?_, ?_⟩
      · intro v hv
        rcases List.mem_append.mp hv with hv | hv
        · exact ((memL v).mp (b1 v hv)).1
        · rcases List.mem_cons.mp hv with rfl | hv
          · exact hPm
          · exact ((memR v).mp (b2 v hv)).1
      · intro e he
        have hmem : ∀ v, v ∈ p0 :: (t1 ++ P :: t2 ++ [p1]) → (v = p0 ∨ v ∈ t1) ∨ v = P ∨ (v ∈ t2 ∨ v = p1) := by
          intro v hv; simp at hv; tauto
        rw [Polygon.edgesFrom_cut] at he
        rcases List.mem_append.mp he with he' | he'
        · refine ⟨?_, ?_⟩
          · intro v hv
            rcases hmem v hv with (rfl | h) | rfl | (h | rfl)
            · exact (a1 e he').1 v (by simp)
            · exact (a1 e he').1 v (by simp [h])
            · exact (a1 e he').1 v (by simp)
            · exact (a1 e he').2 v (hc.sub v ((memR v).mp (b2 v h)).1) (not_lt.mp ((memR v).mp (b2 v h)).2.1)
            · exact (a1 e he').2 v hc.h1 z1.le
          · intro s hs h
            apply (a1 e he').2 s hs
            by_contra hcon
            push Not at hcon
            have := (strict s hs).1 hcon
            linarith
        · refine ⟨?_, ?_⟩
          · intro v hv
            rcases hmem v hv with (rfl | h) | rfl | (h | rfl)
            · exact (a2 e he').2 v hc.h0 z2.le
            · apply (a2 e he').2 v (hc.sub v ((memL v).mp (b1 v h)).1)
              have h1 := (memL v).mp (b1 v h)
              have := hsum v
              have := hmax v h1.1
              linarith [h1.2]
            · exact (a2 e he').1 v (by simp)
            · exact (a2 e he').1 v (by simp [h])
            · exact (a2 e he').1 v (by simp)
          · intro s hs h
            apply (a2 e he').2 s hs
            by_contra hcon
            push Not at hcon
            have := (strict s hs).2 hcon
            linarith
      · left
        intro v hv
        rcases List.mem_append.mp hv with hv | hv
        · have := (memL v).mp (b1 v hv)
          exact (strict v (hc.sub v this.1)).1 this.2
        · rcases List.mem_cons.mp hv with rfl | hv
          · exact hD
          · have := (memR v).mp (b2 v hv)
            exact (strict v (hc.sub v this.1)).2 this.2.2

/-! ### which points are lost -/

/-- A point on the left of the base and on the right of a chain over it is in their hull. -/
theorem inHull_fan {p0 p1 p : Vec2 K} (hp : 0 < side p0 p1 p) (ws : List (Vec2 K)) (h0 : p0 ∈ ws) (w : List (Vec2 K)) :
    ∀ v : Vec2 K, (∀ x ∈ v :: (w ++ [p1]), x ∈ ws) → (∀ e ∈ edgesFrom v (w ++ [p1]), side e.1 e.2 p ≤ 0) →
    side p0 v p ≤ 0 → InHull ws p := by
  have step : ∀ v u : Vec2 K, v ∈ ws → u ∈ ws → side v u p ≤ 0 → side p0 v p ≤ 0 → 0 < side p0 u p → InHull ws p := by
    intro v u hv hu h1 h2 h3
    have hsum : side p0 v p + side v u p = side p0 u p - side p0 u v := by simp only [side]; ring
    exact inHull_of_sides (.vertex _ h0) (.vertex _ hu) (.vertex _ hv) (by linarith) h2 h1 h3.le
  induction w with
  | nil =>
    intro v hw he hv
    exact step v p1 (hw v (by simp)) (hw p1 (by simp)) (he (v, p1) (by simp)) hv hp
  | cons u w ih =>
    intro v hw he hv
    rcases le_or_gt (side p0 u p) 0 with h | h
    · exact ih u (fun x hx => hw x (List.mem_cons_of_mem _ hx)) (fun e h' => he e (by simp at h' ⊢; tauto)) h
    · exact step v u (hw v (by simp)) (hw u (by simp)) (he (v, u) (by simp)) hv h

/-- The edges of the chain of every sorted scan are edges of the chain of the partition. -/
theorem scan_edges {pts ps : List (Vec2 K)} {p0 p1 a b : Vec2 K} (hs : SortCall pts p0 p1 ps a b) :
    ∀ h, partitionPoints pts p0 p1 = .ok h → ∀ t, h = p0 :: t → ∀ w, sortPoints ps a b = a :: w →
    ∀ e ∈ edgesFrom a (w ++ [b]), e ∈ edgesFrom p0 (t ++ [p1]) := by
  have two : ∀ (pts : List (Vec2 K)) (p0 p1 P : Vec2 K) (L R : List (Vec2 K)), cutsAt pts p0 p1 P →
      splitPoints pts P p0 p1 = (L, R) → ∀ h, partitionPoints pts p0 p1 = .ok h → ∀ t, h = p0 :: t →
      ∃ t1 t2, sideOf ((pts.length - L.length - R.length) * 4) L p0 P = .ok (p0 :: t1) ∧
        sideOf ((pts.length - L.length - R.length) * 4) R P p1 = .ok (P :: t2) ∧
        edgesFrom p0 (t ++ [p1]) = edgesFrom p0 (t1 ++ [P]) ++ edgesFrom P (t2 ++ [p1]) := by
    intro pts p0 p1 P L R hP hsp h hh t ht
    rw [partitionPoints_eq] at hh
    simp only [cutsAt] at hP
    rw [hP] at hh
    simp only [hsp] at hh
    have one : ∀ (mx : Nat) (Q : List (Vec2 K)) (q0 q1 : Vec2 K) (h : List (Vec2 K)), sideOf mx Q q0 q1 = .ok h →
        ∃ t, h = q0 :: t := by
      intro mx Q q0 q1 h hq
      simp only [sideOf] at hq
      split at hq
      · simp at hq; exact ⟨Q, hq.symm⟩
      · split at hq
        · obtain ⟨t, e, -⟩ := partition_sub Q.length Q q0 q1 le_rfl h hq
          exact ⟨t, e⟩
        · simp at hq
          obtain ⟨X, -, -, h3⟩ := sort_stack Q q0 q1
          exact ⟨X.reverse, by rw [← hq, h3]⟩
    rcases h1 : sideOf ((pts.length - L.length - R.length) * 4) L p0 P with e | x
    · rw [h1] at hh; simp [bind, Except.bind] at hh
    · rcases h2 : sideOf ((pts.length - L.length - R.length) * 4) R P p1 with e | y
      · rw [h1, h2] at hh; simp [bind, Except.bind] at hh
      · rw [h1, h2] at hh
        simp only [bind, Except.bind, pure, Except.pure, Except.ok.injEq] at hh
        obtain ⟨t1, rfl⟩ := one _ _ _ _ _ h1
        obtain ⟨t2, rfl⟩ := one _ _ _ _ _ h2
        refine ⟨t1, t2, rfl, rfl, ?_⟩
        obtain rfl : t = t1 ++ P :: t2 := by
          rw [ht] at hh; simpa using hh.symm
        exact Polygon.edgesFrom_cut _ _ _ _ _
  induction hs with
  | @left pts p0 p1 P L R hP hsp h1 h =>
    intro h' hh t ht w hw e he
    obtain ⟨t1, t2, s1, s2, heq⟩ := two _ _ _ _ _ _ hP hsp h' hh t ht
    rw [sideOf, if_neg (by omega), if_neg (by omega), hw] at s1
    simp only [Except.ok.injEq, List.cons.injEq, true_and] at s1
    rw [heq, ← s1]
    exact List.mem_append_left _ he
  | @right pts p0 p1 P L R hP hsp h1 h =>
    intro h' hh t ht w hw e he
    obtain ⟨t1, t2, s1, s2, heq⟩ := two _ _ _ _ _ _ hP hsp h' hh t ht
    rw [sideOf, if_neg (by omega), if_neg (by omega), hw] at s2
    simp only [Except.ok.injEq, List.cons.injEq, true_and] at s2
    rw [heq, ← s2]
    exact List.mem_append_right _ he
  | @inLeft pts p0 p1 P L R ps q0 q1 hP hsp h1 h hc ih =>
    intro h' hh t ht w hw e he
    obtain ⟨t1, t2, s1, s2, heq⟩ := two _ _ _ _ _ _ hP hsp h' hh t ht
    rw [sideOf, if_neg (by omega), if_pos (by omega)] at s1
    rw [heq]
    exact List.mem_append_left _ (ih _ s1 t1 rfl w hw e he)
  | @inRight pts p0 p1 P L R ps q0 q1 hP hsp h1 h hc ih =>
    intro h' hh t ht w hw e he
    obtain ⟨t1, t2, s1, s2, heq⟩ := two _ _ _ _ _ _ hP hsp h' hh t ht
    rw [sideOf, if_neg (by omega), if_pos (by omega)] at s2
    rw [heq]
    exact List.mem_append_right _ (ih _ s2 t2 rfl w hw e he)

/-- The points of a sorted scan are among those of the partition, on the left of its base. -/
theorem scan_pos {S : List (Vec2 K)} {pts ps : List (Vec2 K)} {p0 p1 a b : Vec2 K} (hs : SortCall pts p0 p1 ps a b) :
    Ctx S pts p0 p1 → pts ≠ [] ∧ ps ≠ [] ∧ (∀ p ∈ ps, p ∈ pts ∧ 0 < side a b p) := by
  have sides : ∀ (pts : List (Vec2 K)) (p0 p1 P : Vec2 K) (L R : List (Vec2 K)), cutsAt pts p0 p1 P →
      splitPoints pts P p0 p1 = (L, R) → Ctx S pts p0 p1 → (1 < L.length ∨ 1 < R.length) → pts ≠ [] ∧ Ctx S L p0 P ∧ Ctx S R P p1 ∧
      (∀ p ∈ L, p ∈ pts ∧ 0 < side p0 P p) ∧ ∀ p ∈ R, p ∈ pts ∧ 0 < side P p1 p := by
    intro pts p0 p1 P L R hP hsp hc hlen
    have hne : pts ≠ [] := by rintro rfl; simp [cutsAt] at hP
    obtain ⟨P', hPm, hP', hmax⟩ := furthest_spec hne hc.pos
    simp only [cutsAt] at hP
    rw [hP] at hP'
    obtain rfl := Option.some.inj hP'
    rcases (hc.pos P hPm).eq_or_lt with hD | hD
    · rw [splitPoints_zero pts hD.symm] at hsp
      simp only [Prod.mk.injEq] at hsp
      rw [← hsp.1, ← hsp.2] at hlen
      simp at hlen
    · rw [splitPoints_pos pts hD] at hsp
      simp only [Prod.mk.injEq] at hsp
      obtain ⟨c1, c2, m1, m2, -⟩ := ctx_split hc hne hPm hmax hD hsp.1.symm hsp.2.symm
      exact ⟨hne, c1, c2, fun p hp => (m1 p).mp hp, fun p hp => ⟨((m2 p).mp hp).1, ((m2 p).mp hp).2.2⟩⟩
  induction hs with
  | left hP hsp h1 h =>
    intro hc
    obtain ⟨n, -, -, m, -⟩ := sides _ _ _ _ _ _ hP hsp hc (Or.inl h1)
    exact ⟨n, by rintro rfl; simp at h1, m⟩
  | right hP hsp h1 h =>
    intro hc
    obtain ⟨n, -, -, -, m⟩ := sides _ _ _ _ _ _ hP hsp hc (Or.inr h1)
    exact ⟨n, by rintro rfl; simp at h1, m⟩
  | inLeft hP hsp h1 h hcall ih =>
    intro hc
    obtain ⟨n, c, -, m, -⟩ := sides _ _ _ _ _ _ hP hsp hc (Or.inl h1)
    obtain ⟨-, i1, i2⟩ := ih c
    exact ⟨n, i1, fun p hp => ⟨(m p (i2 p hp).1).1, (i2 p hp).2⟩⟩
  | inRight hP hsp h1 h hcall ih =>
    intro hc
    obtain ⟨n, -, c, -, m⟩ := sides _ _ _ _ _ _ hP hsp hc (Or.inr h1)
    obtain ⟨-, i1, i2⟩ := ih c
    exact ⟨n, i1, fun p hp => ⟨(m p (i2 p hp).1).1, (i2 p hp).2⟩⟩

/-- A partition keeps all its points in the hull if its sorted scans do. -/
theorem partition_keeps {S : List (Vec2 K)} (n : Nat) : ∀ (pts : List (Vec2 K)) (p0 p1 : Vec2 K), pts.length ≤ n →
    pts ≠ [] → Ctx S pts p0 p1 → (∀ ps q0 q1, SortCall pts p0 p1 ps q0 q1 → ∀ p ∈ ps, InHull (sortPoints ps q0 q1 ++ [q1]) p) →
    ∀ h, partitionPoints pts p0 p1 = .ok h → ∀ p ∈ pts, InHull (h ++ [p1]) p := by
  induction n with
  | zero => intro pts p0 p1 hn hne; exact absurd (List.eq_nil_of_length_eq_zero (Nat.le_zero.mp hn)) hne
  | succ n ih =>
    intro pts p0 p1 hn hne hc hs h hh
    obtain ⟨P, hPm, hP, hmax⟩ := furthest_spec hne hc.pos
    rw [partitionPoints_eq, hP] at hh
    simp only at hh
    rcases (hc.pos P hPm).eq_or_lt with hD | hD
    · rw [splitPoints_zero pts hD.symm] at hh
      simp [sideOf, bind, Except.bind, pure, Except.pure] at hh
      intro p hp
      have h0 : side p0 p1 p = 0 := le_antisymm (by have := hmax p hp; linarith) (hc.pos p hp)
      obtain ⟨τ, g0, g1, gx, gy⟩ := hc.on p hp h0
      rw [← hh]
      exact inHull_between (p := p0) (q := p1) (.vertex _ (by simp)) (.vertex _ (by simp)) g0 g1 gx gy
    · have hsplit := splitPoints_pos pts hD
      obtain ⟨L, hL⟩ : ∃ L, L = pts.filter fun p => decide (0 < side p0 P p) := ⟨_, rfl⟩
      obtain ⟨R, hR⟩ : ∃ R, R = pts.filter fun p => !(decide (0 < side p0 P p)) && decide (0 < side P p1 p) := ⟨_, rfl⟩
      rw [← hL, ← hR] at hsplit
      rw [hsplit] at hh
      simp only at hh
      obtain ⟨ctxL, ctxR, memL, memR, -⟩ := ctx_split hc hne hPm hmax hD hL hR
      have child : ∀ (Q : List (Vec2 K)) (q0 q1 : Vec2 K), Ctx S Q q0 q1 →
          (Q.length ≤ (pts.length - L.length - R.length) * 4 → 1 < Q.length → Q.length ≤ n) →
          (1 < Q.length → (pts.length - L.length - R.length) * 4 < Q.length → ∀ p ∈ Q, InHull (sortPoints Q q0 q1 ++ [q1]) p) →
          (1 < Q.length → Q.length ≤ (pts.length - L.length - R.length) * 4 →
            ∀ ps a b, SortCall Q q0 q1 ps a b → ∀ p ∈ ps, InHull (sortPoints ps a b ++ [b]) p) →
          ∀ h, sideOf ((pts.length - L.length - R.length) * 4) Q q0 q1 = .ok h → q0 ∈ h ∧ ∀ p ∈ Q, InHull (h ++ [q1]) p := by
        intro Q q0 q1 hcQ hsz hb hcalls h hq
        simp only [sideOf] at hq
        split at hq
        · simp at hq
          rw [← hq]
          exact ⟨by simp, fun p hp => .vertex _ (by simp [hp])⟩
        · rename_i hle
          have hQne : Q ≠ [] := by rintro rfl; simp at hle
          split at hq
          · rename_i hcond
            obtain ⟨t, e, -⟩ := partition_sub Q.length Q q0 q1 le_rfl h hq
            exact ⟨by rw [e]; simp, ih Q q0 q1 (hsz hcond.1 hcond.2) hQne hcQ (hcalls hcond.2 hcond.1) h hq⟩
          · rename_i hcond
            simp at hq
            obtain ⟨X, -, -, h3⟩ := sort_stack Q q0 q1
            rw [← hq]
            exact ⟨by rw [h3]; simp, hb (by omega) (by omega)⟩
      rcases h1 : sideOf ((pts.length - L.length - R.length) * 4) L p0 P with e | x
      · rw [h1] at hh; simp [bind, Except.bind] at hh
      · rcases h2 : sideOf ((pts.length - L.length - R.length) * 4) R P p1 with e | y
        · rw [h1, h2] at hh; simp [bind, Except.bind] at hh
        · rw [h1, h2] at hh
          simp only [bind, Except.bind, pure, Except.pure, Except.ok.injEq] at hh
          obtain ⟨mx, cx⟩ := child L p0 P ctxL (by omega) (fun g1 g2 => hs _ _ _ (.left hP hsplit g1 g2))
            (fun g1 g2 ps a b hcall => hs _ _ _ (.inLeft hP hsplit g1 g2 hcall)) x h1
          obtain ⟨my, cy⟩ := child R P p1 ctxR (by omega) (fun g1 g2 => hs _ _ _ (.right hP hsplit g1 g2))
            (fun g1 g2 ps a b hcall => hs _ _ _ (.inRight hP hsplit g1 g2 hcall)) y h2
          intro p hp
          rw [← hh]
          by_cases hpL : p ∈ L
          · refine inHull_mono ?_ (cx p hpL)
            intro v hv
            rcases List.mem_append.mp hv with h | h
            · simp [h]
            · rw [List.mem_singleton.mp h]; simp [my]
          · by_cases hpR : p ∈ R
            · refine inHull_mono ?_ (cy p hpR)
              intro v hv; simp at hv ⊢; tauto
            · have n1 : side p0 P p ≤ 0 := by
                by_contra h; push Not at h; exact hpL ((memL p).mpr ⟨hp, h⟩)
              have n2 : side P p1 p ≤ 0 := by
                by_contra h; push Not at h; exact hpR ((memR p).mpr ⟨hp, not_lt.mpr n1, h⟩)
              exact inHull_of_sides (.vertex _ (by simp [mx])) (.vertex _ (by simp)) (.vertex _ (by simp [my])) hD n1 n2 (hc.pos p hp)

end Planar.Hull
