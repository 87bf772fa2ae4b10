import Verif.Lemmas.YTotal
import Verif.Lemmas.WindConst
import Verif.Spec.Swapped
/- The test with the two chains of a convex polygon: exactly when it is right. -/
set_option linter.unusedSectionVars false
namespace Planar
open Spec
namespace Polygon
variable {K : Type} [Field K] [LinearOrder K] [IsStrictOrderedRing K]
variable {vs : List (Vec2 K)} {m M : Vec2 K} {Bu Bd : List (Vec2 K)}

/-- The way up taken for the left chain although it is the right one: no point is inside. -/
theorem Cut.wrongU (h : Cut vs m M Bu Bd) (hs : Anticlockwise vs) (p : Vec2 K) :
    pnpYMonotone ((m :: (Bu ++ [M])).map yx, (M :: (Bd ++ [m])).reverse.map yx) p = .ok false := by
  have hmM : ∀ v ∈ m :: (Bu ++ [M]) ++ (M :: (Bd ++ [m])).reverse, v ∈ vs := by
    intro v hv
    rcases List.mem_append.mp hv with hv | hv
    · exact h.memU v hv
    · exact h.memD v (List.mem_reverse.mp hv)
  obtain ⟨s1, s2⟩ := ymono_spec (l := m :: (Bu ++ [M])) (r := (M :: (Bd ++ [m])).reverse) (ml := m) (Ml := M) (mr := m) (Mr := M)
    rfl (by rw [← List.cons_append, List.getLast?_concat]) (by simp) (by rw [List.getLast?_reverse]; rfl) rfl rfl (fun v hv => h.lo v (hmM v hv)) (fun v hv => h.hi v (hmM v hv)) p
  by_cases hp : m.y < p.y ∧ p.y ≤ M.y
  · obtain ⟨a, b, c, d, had, h1, h2, hcd, h3, h4, heq⟩ := s2 hp.1 hp.2
    rw [heq]
    have hab := adj_edge had
    have hdc := adj_edge (adj_reverse hcd)
    have u : Up p.y (a, b) := ⟨h1, h2⟩
    have dn : Dn p.y (d, c) := ⟨h3, h4⟩
    have he := h.edge.mpr (Or.inl hab)
    have hf := h.edge.mpr (Or.inr hdc)
    have hswap : crossX c d p.y = crossX d c p.y := crossX_swap _ (h3.trans_le h4).ne
    simp only [hswap]
    have ord := (crossX_order u dn).1 (hs _ he _ (edges_mem hf).1) (hs _ he _ (edges_mem hf).2)
    simp only at ord
    by_cases q : crossX a b p.y ≤ p.x
    · simp [not_lt.mpr (ord.trans q)]
    · simp [q]
  · exact s1 hp

theorem Cut.wrongD (h : Cut vs m M Bu Bd) (hs : Clockwise vs) (p : Vec2 K) :
    pnpYMonotone ((M :: (Bd ++ [m])).reverse.map yx, (m :: (Bu ++ [M])).map yx) p = .ok false := by
  have hmM : ∀ v ∈ (M :: (Bd ++ [m])).reverse ++ m :: (Bu ++ [M]), v ∈ vs := by
    intro v hv
    rcases List.mem_append.mp hv with hv | hv
    · exact h.memD v (List.mem_reverse.mp hv)
    · exact h.memU v hv
  obtain ⟨s1, s2⟩ := ymono_spec (r := m :: (Bu ++ [M])) (l := (M :: (Bd ++ [m])).reverse) (ml := m) (Ml := M) (mr := m) (Mr := M)
    (by simp) (by rw [List.getLast?_reverse]; rfl) rfl (by rw [← List.cons_append, List.getLast?_concat]) rfl rfl (fun v hv => h.lo v (hmM v hv)) (fun v hv => h.hi v (hmM v hv)) p
  by_cases hp : m.y < p.y ∧ p.y ≤ M.y
  · obtain ⟨c, d, a, b, hcd, h3, h4, had, h1, h2, heq⟩ := s2 hp.1 hp.2
    rw [heq]
    have hab := adj_edge had
    have hdc := adj_edge (adj_reverse hcd)
    have u : Up p.y (a, b) := ⟨h1, h2⟩
    have dn : Dn p.y (d, c) := ⟨h3, h4⟩
    have he := h.edge.mpr (Or.inl hab)
    have hf := h.edge.mpr (Or.inr hdc)
    have hswap : crossX c d p.y = crossX d c p.y := crossX_swap _ (h3.trans_le h4).ne
    simp only [hswap]
    have ord := (crossX_order u dn).2 (hs _ he _ (edges_mem hf).1) (hs _ he _ (edges_mem hf).2)
    simp only at ord
    by_cases q : crossX d c p.y ≤ p.x
    · simp [not_lt.mpr (ord.trans q)]
    · simp [q]
  · exact s1 hp

/-- A closed path that is both clockwise and anticlockwise is flat. -/
theorem flat_of_both (h1 : Anticlockwise vs) (h2 : Clockwise vs) : Flat vs := by
  have hz : ∀ e ∈ edges vs, ∀ v ∈ vs, side e.1 e.2 v = 0 := fun e he v hv => le_antisymm (h2 e he v hv) (h1 e he v hv)
  by_cases hn : ∃ e ∈ edges vs, e.1 ≠ e.2
  · obtain ⟨e, he, hne⟩ := hn
    intro a ha b hb c hc
    have ea := hz e he a ha
    have eb := hz e he b hb
    have ec := hz e he c hc
    unfold side at *
    by_cases hx : e.2.x - e.1.x = 0
    · have hy : e.2.y - e.1.y ≠ 0 := fun hy => hne (Vec2.ext (by linarith) (by linarith))
      rw [hx] at ea eb ec
      have fa : a.x - e.1.x = 0 := by
        have : (e.2.y - e.1.y) * (a.x - e.1.x) = 0 := by linarith
        exact (mul_eq_zero.mp this).resolve_left hy
      have fb : b.x - e.1.x = 0 := by
        have : (e.2.y - e.1.y) * (b.x - e.1.x) = 0 := by linarith
        exact (mul_eq_zero.mp this).resolve_left hy
      have fc : c.x - e.1.x = 0 := by
        have : (e.2.y - e.1.y) * (c.x - e.1.x) = 0 := by linarith
        exact (mul_eq_zero.mp this).resolve_left hy
      rw [show b.x - a.x = 0 by linarith, show c.x - a.x = 0 by linarith]; ring
    · have : (e.2.x - e.1.x) * ((b.x - a.x) * (c.y - a.y) - (b.y - a.y) * (c.x - a.x)) = 0 := by
        linear_combination (b.x - a.x) * (ec - ea) - (c.x - a.x) * (eb - ea)
      exact (mul_eq_zero.mp this).resolve_left hx
  · push Not at hn
    intro a ha b hb c hc
    have hall := edges_invariant (P := fun v => v = a) (fun e he h => (hn e he).symm.trans h) ha rfl
    rw [hall b hb, hall c hc]; unfold side; ring

theorem firstAt_of_min {g : Vec2 K → K} {i : Nat} {n : K} (h : IsFirstMin g vs i n) : FirstAt g vs i := by
  obtain ⟨v, h1, h2, h3, h4⟩ := h
  exact ⟨v, h1, fun w hw => h2 ▸ h3 w hw, fun j w hj hw => h2 ▸ h4 j w hj hw⟩

theorem firstAt_unique {g : Vec2 K → K} {i j : Nat} (hi : FirstAt g vs i) (hj : FirstAt g vs j) : i = j := by
  obtain ⟨v, h1, h2, h3⟩ := hi
  obtain ⟨w, k1, k2, k3⟩ := hj
  rcases lt_trichotomy i j with h | h | h
  · exact absurd (k3 i v h h1) (not_lt.mpr (h2 w (List.mem_of_getElem? k1)))
  · exact h
  · exact absurd (h3 j w h k1) (not_lt.mpr (k2 v (List.mem_of_getElem? h1)))

set_option maxHeartbeats 1600000 in
/-- The test with the stored chains of a convex polygon that is not flat is right everywhere or says nothing is inside,
and which of the two. -/
theorem ymono_exact (hne : vs ≠ []) (hc : Convex vs) (hf : ¬ Flat vs) :
    (¬ Swapped vs → ∀ p, pnpYMonotone (splitYPolylines vs) p = .ok (winding vs p != 0)) ∧
    (Swapped vs → ∀ p, pnpYMonotone (splitYPolylines vs) p = .ok false) := by
  obtain ⟨hmin, hmax, hleft, hright⟩ := yExtremes_spec hne
  generalize hE : yExtremes vs = E at hmin hmax hleft hright
  obtain ⟨m, hm, hmy, hmlo, hmf⟩ := id hmin
  obtain ⟨M, hM, hMy, hMhi, hMf⟩ := id hmax
  obtain ⟨V, hV, hVx, hVlo, hVf⟩ := id hleft
  obtain ⟨X, hX, hXx, hXhi, hXf⟩ := id hright
  have lo : ∀ v ∈ vs, m.y ≤ v.y := fun v hv => by have := hmlo v hv; simp only at this hmy; linarith
  have hi : ∀ v ∈ vs, v.y ≤ M.y := fun v hv => by have := hMhi v hv; simp only at this hMy; linarith
  have vl : ∀ v ∈ vs, V.x ≤ v.x := fun v hv => by have := hVlo v hv; simp only at this hVx; linarith
  have xr : ∀ v ∈ vs, v.x ≤ X.x := fun v hv => by have := hXhi v hv; simp only at this hXx; linarith
  have mmem : m ∈ vs := List.mem_of_getElem? hm
  have eVm : V = m → E.leftI = E.minI := fun h => firstMin_unique hleft hmin (by rw [hV, hm, h])
  have eVM : V = M → E.leftI = E.maxI := fun h => firstMin_unique hleft hmax (by rw [hV, hM, h])
  have eXm : X = m → E.rightI = E.minI := fun h => firstMin_unique hright hmin (by rw [hX, hm, h])
  have eXM : X = M → E.rightI = E.maxI := fun h => firstMin_unique hright hmax (by rw [hX, hM, h])
  have vert : ¬ (∀ v ∈ vs, v.x = V.x) ∧ ¬ (∀ v ∈ vs, v.x = X.x) :=
    ⟨fun h => hf (flat_of_x h), fun h => hf (flat_of_x h)⟩
  have leftright : E.leftI ≠ E.rightI := by
    intro he
    rw [he, hX] at hV
    injection hV with hV
    exact vert.1 (fun v hv => le_antisymm (hV ▸ xr v hv) (vl v hv))
  have hi_lt : E.minI < vs.length := (List.getElem?_eq_some_iff.mp hm).1
  have hM_lt : E.maxI < vs.length := (List.getElem?_eq_some_iff.mp hM).1
  -- what swapped means for the positions found
  have swp : Swapped vs ↔ ((E.leftI = E.minI ∧ (E.minI < E.maxI ∧ Anticlockwise vs ∨ E.maxI < E.minI ∧ Clockwise vs)) ∨
      (E.leftI = E.maxI ∧ E.rightI = E.minI ∧ (E.minI < E.maxI ∧ Clockwise vs ∨ E.maxI < E.minI ∧ Anticlockwise vs))) := by
    constructor
    · rintro ⟨i, j, k, l, h1, h2, h3, h4, h⟩
      obtain rfl := firstAt_unique h1 (firstAt_of_min hmin)
      obtain rfl := firstAt_unique h2 (firstAt_of_min hmax)
      obtain rfl := firstAt_unique h3 (firstAt_of_min hleft)
      obtain rfl := firstAt_unique h4 (firstAt_of_min hright)
      exact h
    · intro h
      exact ⟨_, _, _, _, firstAt_of_min hmin, firstAt_of_min hmax, firstAt_of_min hleft, firstAt_of_min hright, h⟩
  have notboth : Anticlockwise vs → Clockwise vs → False := fun h1 h2 => hf (flat_of_both h1 h2)
  have useU : ∀ {Bu Bd : List (Vec2 K)}, Cut vs m M Bu Bd → m.y < M.y →
      ((V ∈ Bu ∧ V ≠ m ∧ V ≠ M) ∨ (X ∈ Bd ∧ X ≠ m ∧ X ≠ M)) → Anticlockwise vs → False := by
    intro Bu Bd cut hlt hor ho
    rcases hor with ⟨h1, h2, h3⟩ | ⟨h1, h2, h3⟩
    · exact cut.sideU hc hlt (ρ := 1) (Or.inl rfl) h1 h2 h3 (fun v hv => by simpa using vl v hv) vert.1
        (fun e he v hv => by simpa using ho e he v hv)
    · exact cut.sideD hc hlt (ρ := -1) (Or.inr rfl) h1 h2 h3 (fun v hv => by simpa using xr v hv) vert.2
        (fun e he v hv => by simpa using ho e he v hv)
  have useD : ∀ {Bu Bd : List (Vec2 K)}, Cut vs m M Bu Bd → m.y < M.y →
      ((V ∈ Bd ∧ V ≠ m ∧ V ≠ M) ∨ (X ∈ Bu ∧ X ≠ m ∧ X ≠ M)) → Clockwise vs → False := by
    intro Bu Bd cut hlt hor ho
    rcases hor with ⟨h1, h2, h3⟩ | ⟨h1, h2, h3⟩
    · exact cut.sideD hc hlt (ρ := 1) (Or.inl rfl) h1 h2 h3 (fun v hv => by simpa using vl v hv) vert.1
        (fun e he v hv => by have := ho e he v hv; linarith)
    · exact cut.sideU hc hlt (ρ := -1) (Or.inr rfl) h1 h2 h3 (fun v hv => by simpa using xr v hv) vert.2
        (fun e he v hv => by have := ho e he v hv; linarith)
  have rightU : ∀ {Bu Bd : List (Vec2 K)}, Cut vs m M Bu Bd → Clockwise vs → ∀ p,
      pnpYMonotone ((m :: (Bu ++ [M])).map yx, (M :: (Bd ++ [m])).reverse.map yx) p = .ok (winding vs p != 0) := by
    intro Bu Bd cut hcw p
    obtain ⟨b, hb, -, hb2⟩ := cut.testU hc p
    rw [hb, hb2 hcw]
  have rightD : ∀ {Bu Bd : List (Vec2 K)}, Cut vs m M Bu Bd → Anticlockwise vs → ∀ p,
      pnpYMonotone ((M :: (Bd ++ [m])).reverse.map yx, (m :: (Bu ++ [M])).map yx) p = .ok (winding vs p != 0) := by
    intro Bu Bd cut hcw p
    obtain ⟨b, hb, -, hb2⟩ := cut.testD hc p
    rw [hb, hb2 hcw]
  have hyx : ∀ l : List (Vec2 K), (l.map fun v => (v.y, v.x)) = l.map yx := fun _ => rfl
  rw [swp]
  rcases lt_trichotomy E.minI E.maxI with hlt | heq | hlt
  · obtain ⟨A, x, B, y, C, hvs, hA, hB, e1, e2, e3⟩ := cut hlt hM_lt
    have hxm : x = m := by
      rw [hvs, ← hA, List.getElem?_append_right le_rfl] at hm; simpa using hm
    have hyM : y = M := by
      rw [hvs, ← hB, List.getElem?_append_right (by omega)] at hM
      rw [show A.length + 1 + B.length - A.length = B.length + 1 by omega, List.getElem?_cons_succ, List.getElem?_append_right le_rfl] at hM
      simpa using hM
    subst hxm hyM
    have hcut : Cut vs x y B (C ++ A) := by
      refine ⟨e3, ?_, ?_, lo, hi⟩
      · rw [hvs]; exact fun v hv => cut_memU hv
      · rw [hvs]; exact fun v hv => cut_memD hv
    have hylt : x.y < y.y := by
      rcases lt_or_eq_of_le (hi x mmem) with h | h
      · exact h
      · exfalso
        have := hMf _ x hlt hm
        simp only at this hMy; linarith
    have posV := cut_mem (by rw [← hvs]; exact hV)
    have posX := cut_mem (by rw [← hvs]; exact hX)
    rw [hB, hA] at posV posX
    unfold splitYPolylines
    simp only [hE, hlt, if_true, hyx]
    rw [← List.map_take, ← List.map_drop, e1, ← List.map_drop, ← List.map_take, ← List.map_append, e2,
      upward_up hylt.le, upward_down hylt]
    have hnlt : ¬ E.maxI < E.minI := by omega
    simp only [hnlt, false_and, or_false, true_and]
    split <;> rename_i hcond
    · rcases hc.1 with ho | ho
      · -- anticlockwise: the chains are swapped
        have hl : E.leftI = E.minI := by
          by_contra hl
          refine useU hcut hylt ?_ ho
          rcases hcond with h | h | h
          · left
            exact ⟨posV.1 (by omega) (by omega), fun h' => by have := eVm h'; omega, fun h' => by have := eVM h'; omega⟩
          · right
            exact ⟨posX.2.1 (by omega), fun h' => by have := eXm h'; omega, fun h' => by have := eXM h'; omega⟩
          · right
            exact ⟨posX.2.2 (by omega), fun h' => by have := eXm h'; omega, fun h' => by have := eXM h'; omega⟩
        exact ⟨fun h => absurd (Or.inl ⟨hl, ho⟩) h, fun _ => hcut.wrongU ho⟩
      · refine ⟨fun _ => rightU hcut ho, fun h => ?_⟩
        exfalso
        rcases h with h | h
        · exact notboth h.2 ho
        · omega
    · rcases hc.1 with ho | ho
      · refine ⟨fun _ => rightD hcut ho, fun h => ?_⟩
        exfalso
        rcases h with h | h
        · omega
        · exact notboth ho h.2.2
      · have hl : E.leftI = E.maxI ∧ E.rightI = E.minI := by
          by_contra hl
          refine useD hcut hylt ?_ ho
          by_cases hlm : E.leftI = E.maxI
          · right
            exact ⟨posX.1 (by omega) (by omega), fun h' => by have := eXm h'; omega, fun h' => by have := eXM h'; omega⟩
          · left
            refine ⟨?_, fun h' => by have := eVm h'; omega, fun h' => by have := eVM h'; omega⟩
            by_cases hl : E.leftI < E.minI
            · exact posV.2.1 hl
            · exact posV.2.2 (by omega)
        exact ⟨fun h => absurd (Or.inr ⟨hl.1, hl.2, ho⟩) h, fun _ => hcut.wrongD ho⟩
  · exfalso
    have hmM : m = M := by rw [heq, hM] at hm; injection hm with hm; exact hm.symm
    have ally : ∀ v ∈ vs, v.y = m.y := fun v hv => le_antisymm (hmM ▸ hi v hv) (lo v hv)
    apply hf
    intro a ha b hb c hc
    simp [side, ally a ha, ally b hb, ally c hc]
  · obtain ⟨A, x, B, y, C, hvs, hA, hB, e1, e2, e3⟩ := cut hlt hi_lt
    have hxM : x = M := by
      rw [hvs, ← hA, List.getElem?_append_right le_rfl] at hM; simpa using hM
    have hym : y = m := by
      rw [hvs, ← hB, List.getElem?_append_right (by omega)] at hm
      rw [show A.length + 1 + B.length - A.length = B.length + 1 by omega, List.getElem?_cons_succ, List.getElem?_append_right le_rfl] at hm
      simpa using hm
    subst hxM hym
    have hcut : Cut vs y x (C ++ A) B := by
      refine ⟨List.perm_append_comm.trans e3, ?_, ?_, lo, hi⟩
      · rw [hvs]; exact fun v hv => cut_memD hv
      · rw [hvs]; exact fun v hv => cut_memU hv
    have hylt : y.y < x.y := by
      rcases lt_or_eq_of_le (hi y mmem) with h | h
      · exact h
      · exfalso
        have := hmf _ x hlt hM
        simp only at this hmy; linarith
    have posV := cut_mem (by rw [← hvs]; exact hV)
    have posX := cut_mem (by rw [← hvs]; exact hX)
    rw [hB, hA] at posV posX
    unfold splitYPolylines
    have hnlt : ¬ E.minI < E.maxI := by omega
    simp only [hE, hnlt, if_false, hyx]
    rw [← List.map_take, ← List.map_drop, e1, ← List.map_drop, ← List.map_take, ← List.map_append, e2,
      upward_down hylt, upward_up hylt.le]
    simp only [hnlt, hlt, false_and, false_or, true_and]
    split <;> rename_i hcond
    · rcases hc.1 with ho | ho
      · refine ⟨fun _ => rightD hcut ho, fun h => ?_⟩
        exfalso
        rcases h with h | h
        · exact notboth ho h.2
        · omega
      · have hl : E.leftI = E.minI := by
          by_contra hl
          refine useD hcut hylt ?_ ho
          rcases hcond with h | h | h
          · left
            exact ⟨posV.1 (by omega) (by omega), fun h' => by have := eVm h'; omega, fun h' => by have := eVM h'; omega⟩
          · right
            exact ⟨posX.2.2 (by omega), fun h' => by have := eXm h'; omega, fun h' => by have := eXM h'; omega⟩
          · right
            exact ⟨posX.2.1 (by omega), fun h' => by have := eXm h'; omega, fun h' => by have := eXM h'; omega⟩
        exact ⟨fun h => absurd (Or.inl ⟨hl, ho⟩) h, fun _ => hcut.wrongD ho⟩
    · rcases hc.1 with ho | ho
      · have hl : E.leftI = E.maxI ∧ E.rightI = E.minI := by
          by_contra hl
          refine useU hcut hylt ?_ ho
          by_cases hlm : E.leftI = E.maxI
          · right
            exact ⟨posX.1 (by omega) (by omega), fun h' => by have := eXm h'; omega, fun h' => by have := eXM h'; omega⟩
          · left
            refine ⟨?_, fun h' => by have := eVm h'; omega, fun h' => by have := eVM h'; omega⟩
            by_cases hl : E.leftI < E.maxI
            · exact posV.2.1 hl
            · exact posV.2.2 (by omega)
        exact ⟨fun h => absurd (Or.inr ⟨hl.1, hl.2, ho⟩) h, fun _ => hcut.wrongU ho⟩
      · refine ⟨fun _ => rightU hcut ho, fun h => ?_⟩
        exfalso
        rcases h with h | h
        · omega
        · exact notboth h.2.2 ho

/-- The winding number is not zero at a point strictly on the left of every edge that has a length, with vertices above
and below it. -/
theorem winding_of_left' {p : Vec2 K} (h : ∀ e ∈ edges vs, e.1 ≠ e.2 → 0 < side e.1 e.2 p)
    (hup : ∃ v ∈ vs, p.y < v.y) (hdn : ∃ v ∈ vs, v.y < p.y) : winding vs p ≠ 0 := by
  have hle : ∀ e ∈ edges vs, crossing p e ≤ 0 := by
    rintro ⟨a, b⟩ he
    unfold crossing
    simp only
    split
    · rename_i hc
      exfalso
      have hs := h _ he (fun hab => by simp only at hab; rw [hab] at hc; linarith [hc.1, hc.2.1])
      simp only at hs
      have := (crossX_le_up (a := a) (b := b) (p := p) (by linarith [hc.1, hc.2.1])).mpr hc.2.2
      unfold side at hs; linarith
    · split <;> norm_num
  have hdown : ∀ e ∈ edges vs, e.2.y < p.y → p.y ≤ e.1.y → crossing p e = -1 := by
    rintro ⟨a, b⟩ he h1 h2
    simp only at h1 h2
    have hs := h _ he (fun hab => by simp only at hab; rw [hab] at h2; linarith)
    simp only at hs
    unfold crossing
    simp only
    rw [if_neg (by rintro ⟨h', -, -⟩; linarith), if_pos]
    refine ⟨h1, h2, (crossX_le_down (a := a) (b := b) (p := p) (by linarith)).mp ?_⟩
    unfold side at hs; linarith
  have hex : ∃ e ∈ edges vs, e.2.y < p.y ∧ p.y ≤ e.1.y := by
    by_contra hno
    push Not at hno
    obtain ⟨v, hv, hvy⟩ := hup
    obtain ⟨w, hw, hwy⟩ := hdn
    have := edges_invariant (P := fun v => p.y ≤ v.y) (fun e he h1 => by
          by_contra h2; exact absurd h1 (not_le.mpr (hno e he (not_le.mp h2)))) hv hvy.le w hw
    linarith
  obtain ⟨e, he, h1, h2⟩ := hex
  have hneg := hdown e he h1 h2
  have hnp : ∀ m : List (Vec2 K × Vec2 K), (∀ e ∈ m, crossing p e ≤ 0) → (m.map (crossing p)).sum ≤ 0 := by
    intro m
    induction m with
    | nil => simp
    | cons b m ihm =>
      intro hm
      have := ihm fun e he => hm e (by simp [he])
      have := hm b (by simp)
      simp only [List.map_cons, List.sum_cons]; omega
  obtain ⟨l1, l2, hl⟩ := List.append_of_mem he
  unfold winding
  rw [hl] at hle ⊢
  have s1 := hnp l1 fun e he => hle e (by simp [he])
  have s2 := hnp l2 fun e he => hle e (by simp [he])
  simp only [List.map_append, List.map_cons, List.sum_append, List.sum_cons]
  omega

theorem side_mean (e : Vec2 K × Vec2 K) (a b c : Vec2 K) :
    side e.1 e.2 ⟨(a.x + b.x + c.x) / 3, (a.y + b.y + c.y) / 3⟩ =
      (side e.1 e.2 a + side e.1 e.2 b + side e.1 e.2 c) / 3 := by
  unfold side; ring

/-- Three points on the line through two different points are on one line. -/
theorem collinear_of_line {u v a b c : Vec2 K} (hne : u ≠ v) (ea : side u v a = 0) (eb : side u v b = 0)
    (ec : side u v c = 0) : side a b c = 0 := by
  unfold side at *
  by_cases hx : v.x - u.x = 0
  · have hy : v.y - u.y ≠ 0 := fun hy => hne (Vec2.ext (by linarith) (by linarith))
    have : (v.y - u.y) * ((b.x - a.x) * (c.y - a.y) - (b.y - a.y) * (c.x - a.x)) = 0 := by
      linear_combination (b.y - a.y) * (ec - ea) - (c.y - a.y) * (eb - ea)
    exact (mul_eq_zero.mp this).resolve_left hy
  · have : (v.x - u.x) * ((b.x - a.x) * (c.y - a.y) - (b.y - a.y) * (c.x - a.x)) = 0 := by
      linear_combination (b.x - a.x) * (ec - ea) - (c.x - a.x) * (eb - ea)
    exact (mul_eq_zero.mp this).resolve_left hx

theorem inside_exists_left (hs : Anticlockwise vs) (hf : ¬ Flat vs) : ∃ p, winding vs p ≠ 0 := by
  unfold Flat at hf
  push Not at hf
  obtain ⟨a, ha, b, hb, c, hc, hne⟩ := hf
  refine ⟨⟨(a.x + b.x + c.x) / 3, (a.y + b.y + c.y) / 3⟩, ?_⟩
  have hy : ¬ (a.y = b.y ∧ a.y = c.y) := by
    rintro ⟨h1, h2⟩; apply hne; unfold side; rw [← h1, ← h2]; ring
  refine winding_of_left' ?_ ?_ ?_
  · intro e he hee
    rw [side_mean]
    have h1 := hs e he a ha
    have h2 := hs e he b hb
    have h3 := hs e he c hc
    by_contra hno
    have hno := not_lt.mp hno
    have z1 : side e.1 e.2 a = 0 := by linarith
    have z2 : side e.1 e.2 b = 0 := by linarith
    have z3 : side e.1 e.2 c = 0 := by linarith
    exact hne (collinear_of_line hee z1 z2 z3)
  · simp only
    by_contra hno
    push Not at hno
    have h1 := hno a ha
    have h2 := hno b hb
    have h3 := hno c hc
    exact hy ⟨by linarith, by linarith⟩
  · simp only
    by_contra hno
    push Not at hno
    have h1 := hno a ha
    have h2 := hno b hb
    have h3 := hno c hc
    exact hy ⟨by linarith, by linarith⟩

end Polygon
end Planar
