import Verif.Lemmas.Leftmost
/- The test with the two chains of a convex polygon against the winding number. -/
set_option linter.unusedSectionVars false
namespace Planar
open Spec
namespace Polygon
variable {K : Type} [Field K] [LinearOrder K] [IsStrictOrderedRing K]

theorem path_ends (a b : Vec2 K) (l : List (Vec2 K)) : IsPath a (edgesFrom a (l ++ [b])) b := by
  have := edgesFrom_path a (l ++ [b])
  simpa using this

/-- A closed path cut at a lowest and a highest vertex: `Bu` are the vertices on the way up, `Bd` on the way down. -/
structure Cut (vs : List (Vec2 K)) (m M : Vec2 K) (Bu Bd : List (Vec2 K)) : Prop where
  perm : (edgesFrom m (Bu ++ [M]) ++ edgesFrom M (Bd ++ [m])).Perm (edges vs)
  memU : ∀ v ∈ m :: (Bu ++ [M]), v ∈ vs
  memD : ∀ v ∈ M :: (Bd ++ [m]), v ∈ vs
  lo : ∀ v ∈ vs, m.y ≤ v.y
  hi : ∀ v ∈ vs, v.y ≤ M.y

variable {vs : List (Vec2 K)} {m M : Vec2 K} {Bu Bd : List (Vec2 K)}

theorem Cut.edge (h : Cut vs m M Bu Bd) {e : Vec2 K × Vec2 K} :
    e ∈ edges vs ↔ e ∈ edgesFrom m (Bu ++ [M]) ∨ e ∈ edgesFrom M (Bd ++ [m]) := by
  rw [← h.perm.mem_iff, List.mem_append]

theorem Cut.once (h : Cut vs m M Bu Bd) (hc : Convex vs) (y : K) :
    (∀ e ∈ edgesFrom m (Bu ++ [M]), ∀ f ∈ edgesFrom M (Bd ++ [m]), ¬ (Up y e ∧ Up y f)) ∧
    (∀ e ∈ edgesFrom m (Bu ++ [M]), ∀ f ∈ edgesFrom M (Bd ++ [m]), ¬ (Dn y e ∧ Dn y f)) := by
  obtain ⟨h1, h2⟩ := one_crossing hc y
  have symU : ∀ {e f : Vec2 K × Vec2 K}, ¬ (Up y e ∧ Up y f) → ¬ (Up y f ∧ Up y e) := fun h h' => h ⟨h'.2, h'.1⟩
  have symD : ∀ {e f : Vec2 K × Vec2 K}, ¬ (Dn y e ∧ Dn y f) → ¬ (Dn y f ∧ Dn y e) := fun h h' => h ⟨h'.2, h'.1⟩
  rw [← h.perm.pairwise_iff symU] at h1
  rw [← h.perm.pairwise_iff symD] at h2
  exact ⟨(List.pairwise_append.mp h1).2.2, (List.pairwise_append.mp h2).2.2⟩

/-- The chains are monotone. -/
theorem Cut.mono (h : Cut vs m M Bu Bd) (hc : Convex vs) :
    (∀ e ∈ edgesFrom m (Bu ++ [M]), e.1.y ≤ e.2.y) ∧ (∀ e ∈ edgesFrom M (Bd ++ [m]), e.2.y ≤ e.1.y) := by
  constructor
  · intro e he
    by_contra hlt
    have hlt := not_le.mp hlt
    have hm := edges_mem (h.edge.mpr (Or.inl he))
    obtain ⟨f, hf, hd⟩ := path_dn (h := e.1.y) (path_ends M m Bd) ((h.lo _ hm.2).trans_lt hlt) (h.hi _ hm.1)
    exact (h.once hc e.1.y).2 e he f hf ⟨⟨hlt, le_rfl⟩, hd⟩
  · intro f hf
    by_contra hlt
    have hlt := not_le.mp hlt
    have hm := edges_mem (h.edge.mpr (Or.inr hf))
    obtain ⟨e, he, hd⟩ := path_up (h := f.2.y) (path_ends m M Bu) ((h.lo _ hm.1).trans_lt hlt) (h.hi _ hm.2)
    exact (h.once hc f.2.y).1 e he f hf ⟨hd, ⟨hlt, le_rfl⟩⟩

theorem edgesFrom_cut (a b v : Vec2 K) (l1 l2 : List (Vec2 K)) :
    edgesFrom a (l1 ++ v :: l2 ++ [b]) = edgesFrom a (l1 ++ [v]) ++ edgesFrom v (l2 ++ [b]) := by
  have : l1 ++ v :: l2 ++ [b] = (l1 ++ [v]) ++ (l2 ++ [b]) := by simp
  rw [this, edgesFrom_append]; simp

/-- The leftmost or rightmost vertex is inside the chain that goes up: on which side the vertices are. -/
theorem Cut.sideU (h : Cut vs m M Bu Bd) (hc : Convex vs) (hlt : m.y < M.y) {ρ : K} (hρ : ρ = 1 ∨ ρ = -1) {V : Vec2 K}
    (hV : V ∈ Bu) (h1 : V ≠ m) (h2 : V ≠ M) (hx : ∀ v ∈ vs, ρ * V.x ≤ ρ * v.x) (hnv : ¬ ∀ v ∈ vs, v.x = V.x) :
    ¬ ∀ e ∈ edges vs, ∀ v ∈ vs, 0 ≤ ρ * side e.1 e.2 v := by
  intro hs
  obtain ⟨l1, l2, rfl⟩ := List.append_of_mem hV
  have hsplit := edgesFrom_cut m M V l1 l2
  have hmem : ∀ e ∈ edgesFrom m (l1 ++ [V]) ++ edgesFrom V (l2 ++ [M]), e ∈ edges vs := by
    intro e he; rw [h.edge, hsplit]; exact Or.inl he
  apply hnv
  refine leftmost (S := fun v => v ∈ vs) (τ := 1) hρ (Or.inl rfl) (path_ends m V l1) (path_ends V M l2) ?_ ?_ ?_ hx ?_ ?_ ?_ ?_ ?_ h1 h2 ?_
  · intro e he; rw [one_mul, one_mul]; exact (h.mono hc).1 e (by rw [hsplit]; exact he)
  · intro e he; exact edges_mem (hmem e he)
  · intro e he v hv; rw [mul_one]; exact hs e (hmem e he) v hv
  · intro v hv; simpa using h.lo v hv
  · intro v hv; simpa using h.hi v hv
  · exact h.memU m (by simp)
  · exact h.memU M (by simp)
  · exact h.memU V (by simp)
  · simpa using hlt

theorem Cut.sideD (h : Cut vs m M Bu Bd) (hc : Convex vs) (hlt : m.y < M.y) {ρ : K} (hρ : ρ = 1 ∨ ρ = -1) {V : Vec2 K}
    (hV : V ∈ Bd) (h1 : V ≠ m) (h2 : V ≠ M) (hx : ∀ v ∈ vs, ρ * V.x ≤ ρ * v.x) (hnv : ¬ ∀ v ∈ vs, v.x = V.x) :
    ¬ ∀ e ∈ edges vs, ∀ v ∈ vs, 0 ≤ -ρ * side e.1 e.2 v := by
  intro hs
  obtain ⟨l1, l2, rfl⟩ := List.append_of_mem hV
  have hsplit := edgesFrom_cut M m V l1 l2
  have hmem : ∀ e ∈ edgesFrom M (l1 ++ [V]) ++ edgesFrom V (l2 ++ [m]), e ∈ edges vs := by
    intro e he; rw [h.edge, hsplit]; exact Or.inr he
  apply hnv
  refine leftmost (S := fun v => v ∈ vs) (τ := -1) hρ (Or.inr rfl) (path_ends M V l1) (path_ends V m l2) ?_ ?_ ?_ hx ?_ ?_ ?_ ?_ ?_ h2 h1 ?_
  · intro e he
    have := (h.mono hc).2 e (by rw [hsplit]; exact he)
    linarith
  · intro e he; exact edges_mem (hmem e he)
  · intro e he v hv; rw [mul_neg_one]; exact hs e (hmem e he) v hv
  · intro v hv; have := h.hi v hv; linarith
  · intro v hv; have := h.lo v hv; linarith
  · exact h.memD M (by simp)
  · exact h.memD m (by simp)
  · exact h.memD V (by simp)
  · linarith

theorem winding_range (hlo : ∀ v ∈ vs, m.y ≤ v.y) (hhi : ∀ v ∈ vs, v.y ≤ M.y) {p : Vec2 K}
    (hp : ¬ (m.y < p.y ∧ p.y ≤ M.y)) : winding vs p = 0 := by
  unfold winding
  apply List.sum_eq_zero
  intro z hz
  obtain ⟨e, he, rfl⟩ := List.mem_map.mp hz
  have hm := edges_mem he
  apply crossing_no
  · rintro ⟨h1, h2⟩; exact hp ⟨(hlo _ hm.1).trans_lt h1, h2.trans (hhi _ hm.2)⟩
  · rintro ⟨h1, h2⟩; exact hp ⟨(hlo _ hm.2).trans_lt h1, h2.trans (hhi _ hm.1)⟩

/-- The test with the way up on the left. -/
theorem Cut.testU (h : Cut vs m M Bu Bd) (hc : Convex vs) (p : Vec2 K) :
    ∃ b, pnpYMonotone ((m :: (Bu ++ [M])).map yx, (M :: (Bd ++ [m])).reverse.map yx) p = .ok b ∧
      (b = true → winding vs p ≠ 0) ∧
      ((∀ e ∈ edges vs, ∀ v ∈ vs, side e.1 e.2 v ≤ 0) → b = (winding vs p != 0)) := by
  have hmM : ∀ v ∈ m :: (Bu ++ [M]) ++ (M :: (Bd ++ [m])).reverse, v ∈ vs := by
    intro v hv
    rcases List.mem_append.mp hv with hv | hv
    · exact h.memU v hv
    · exact h.memD v (List.mem_reverse.mp hv)
  obtain ⟨s1, s2⟩ := ymono_spec (l := m :: (Bu ++ [M])) (r := (M :: (Bd ++ [m])).reverse) (ml := m) (Ml := M) (mr := m) (Mr := M)
    rfl (by rw [← List.cons_append, List.getLast?_concat]) (by simp) (by rw [List.getLast?_reverse]; rfl) rfl rfl (fun v hv => h.lo v (hmM v hv)) (fun v hv => h.hi v (hmM v hv)) p
  by_cases hp : m.y < p.y ∧ p.y ≤ M.y
  · obtain ⟨a, b, c, d, had, h1, h2, hcd, h3, h4, heq⟩ := s2 hp.1 hp.2
    refine ⟨_, heq, ?_⟩
    have hab := adj_edge had
    have hdc := adj_edge (adj_reverse hcd)
    have u : Up p.y (a, b) := ⟨h1, h2⟩
    have dn : Dn p.y (d, c) := ⟨h3, h4⟩
    have he := h.edge.mpr (Or.inl hab)
    have hf := h.edge.mpr (Or.inr hdc)
    have hw : winding vs p = crossing p (a, b) + crossing p (d, c) :=
      sum_single (one_crossing hc p.y).1 (one_crossing hc p.y).2 he u hf dn
    rw [hw, crossing_up u, crossing_dn dn]
    simp only
    have hswap : crossX c d p.y = crossX d c p.y := crossX_swap _ (h3.trans_le h4).ne
    rw [hswap]
    refine ⟨?_, ?_⟩
    · intro ht
      simp only [Bool.and_eq_true, decide_eq_true_eq] at ht
      rw [if_pos ht.1, if_neg (not_le.mpr ht.2)]; decide
    · intro hs
      have ord := (crossX_order u dn).2 (hs _ he _ (edges_mem hf).1) (hs _ he _ (edges_mem hf).2)
      simp only at ord
      by_cases q1 : crossX a b p.y ≤ p.x
      · by_cases q2 : crossX d c p.y ≤ p.x
        · simp [q1, q2, not_lt.mpr q2]
        · simp [q1, q2, not_le.mp q2]
      · have q2 : ¬ crossX d c p.y ≤ p.x := fun hc => q1 (ord.trans hc)
        simp [q1, q2]
  · refine ⟨false, s1 hp, by simp, ?_⟩
    intro _
    rw [winding_range h.lo h.hi hp]; rfl

/-- The test with the way down on the left. -/
theorem Cut.testD (h : Cut vs m M Bu Bd) (hc : Convex vs) (p : Vec2 K) :
    ∃ b, pnpYMonotone ((M :: (Bd ++ [m])).reverse.map yx, (m :: (Bu ++ [M])).map yx) p = .ok b ∧
      (b = true → winding vs p ≠ 0) ∧
      ((∀ e ∈ edges vs, ∀ v ∈ vs, 0 ≤ side e.1 e.2 v) → b = (winding vs p != 0)) := by
  have hmM : ∀ v ∈ (M :: (Bd ++ [m])).reverse ++ m :: (Bu ++ [M]), v ∈ vs := by
    intro v hv
    rcases List.mem_append.mp hv with hv | hv
    · exact h.memD v (List.mem_reverse.mp hv)
    · exact h.memU v hv
  obtain ⟨s1, s2⟩ := ymono_spec (r := m :: (Bu ++ [M])) (l := (M :: (Bd ++ [m])).reverse) (ml := m) (Ml := M) (mr := m) (Mr := M)
    (by simp) (by rw [List.getLast?_reverse]; rfl) rfl (by rw [← List.cons_append, List.getLast?_concat]) rfl rfl (fun v hv => h.lo v (hmM v hv)) (fun v hv => h.hi v (hmM v hv)) p
  by_cases hp : m.y < p.y ∧ p.y ≤ M.y
  · obtain ⟨c, d, a, b, hcd, h3, h4, had, h1, h2, heq⟩ := s2 hp.1 hp.2
    refine ⟨_, heq, ?_⟩
    have hab := adj_edge had
    have hdc := adj_edge (adj_reverse hcd)
    have u : Up p.y (a, b) := ⟨h1, h2⟩
    have dn : Dn p.y (d, c) := ⟨h3, h4⟩
    have he := h.edge.mpr (Or.inl hab)
    have hf := h.edge.mpr (Or.inr hdc)
    have hw : winding vs p = crossing p (a, b) + crossing p (d, c) :=
      sum_single (one_crossing hc p.y).1 (one_crossing hc p.y).2 he u hf dn
    rw [hw, crossing_up u, crossing_dn dn]
    simp only
    have hswap : crossX c d p.y = crossX d c p.y := crossX_swap _ (h3.trans_le h4).ne
    rw [hswap]
    refine ⟨?_, ?_⟩
    · intro ht
      simp only [Bool.and_eq_true, decide_eq_true_eq] at ht
      rw [if_pos ht.1, if_neg (not_le.mpr ht.2)]; decide
    · intro hs
      have ord := (crossX_order u dn).1 (hs _ he _ (edges_mem hf).1) (hs _ he _ (edges_mem hf).2)
      simp only at ord
      by_cases q1 : crossX a b p.y ≤ p.x
      · have q2 : crossX d c p.y ≤ p.x := ord.trans q1
        simp [q1, q2, not_lt.mpr q1]
      · by_cases q2 : crossX d c p.y ≤ p.x
        · simp [q1, q2, not_le.mp q1]
        · simp [q1, q2]
  · refine ⟨false, s1 hp, by simp, ?_⟩
    intro _
    rw [winding_range h.lo h.hi hp]; rfl

theorem upward_up {l : List (Vec2 K)} {a b : Vec2 K} (h : a.y ≤ b.y) :
    upward ((a :: (l ++ [b])).map yx) = (a :: (l ++ [b])).map yx := by
  unfold upward
  have h1 : ((a :: (l ++ [b])).map yx).head? = some (yx a) := rfl
  have h2 : ((a :: (l ++ [b])).map yx).getLast? = some (yx b) := by
    rw [List.getLast?_map, ← List.cons_append, List.getLast?_concat]; rfl
  rw [h1, h2]
  simp only [yx, gt_iff_lt, not_lt.mpr h, if_false]

theorem upward_down {l : List (Vec2 K)} {a b : Vec2 K} (h : b.y < a.y) :
    upward ((a :: (l ++ [b])).map yx) = (a :: (l ++ [b])).reverse.map yx := by
  unfold upward
  have h1 : ((a :: (l ++ [b])).map yx).head? = some (yx a) := rfl
  have h2 : ((a :: (l ++ [b])).map yx).getLast? = some (yx b) := by
    rw [List.getLast?_map, ← List.cons_append, List.getLast?_concat]; rfl
  rw [h1, h2, List.map_reverse]
  simp only [yx, gt_iff_lt, h, if_true]

theorem firstMin_isFirst {g : Vec2 K → K} {l : List (Vec2 K)} {i : Nat} {n : K} {v : Vec2 K} (h : IsFirstMin g l i n)
    (hv : l[i]? = some v) : IsFirst g l v := by
  obtain ⟨w, hw, hgw, hmin, hfirst⟩ := h
  rw [hv] at hw; injection hw with hw; subst hw
  obtain ⟨hi, hiv⟩ := List.getElem?_eq_some_iff.mp hv
  refine ⟨l.take i, l.drop (i + 1), ?_, fun u hu => by rw [hgw]; exact hmin u hu, ?_⟩
  · rw [← hiv, ← List.drop_eq_getElem_cons, List.take_append_drop]
  · intro u hu
    obtain ⟨j, hj, hju⟩ := List.mem_take_iff_getElem.mp hu
    rw [hgw]
    exact hfirst j u (by omega) (by rw [← hju]; exact List.getElem?_eq_getElem _)

theorem flat_of_x {x : K} (h : ∀ v ∈ vs, v.x = x) : Flat vs := by
  intro a ha b hb c hc
  simp [side, h a ha, h b hb, h c hc]

theorem cut_memU {A B C : List (Vec2 K)} {x y v : Vec2 K} (h : v ∈ x :: (B ++ [y])) : v ∈ A ++ x :: (B ++ y :: C) := by
  simp at h ⊢; tauto

theorem cut_memD {A B C : List (Vec2 K)} {x y v : Vec2 K} (h : v ∈ y :: (C ++ A ++ [x])) : v ∈ A ++ x :: (B ++ y :: C) := by
  simp at h ⊢; tauto

set_option maxHeartbeats 1600000 in
/-- The test with the stored chains of a convex polygon never raises, is never wrong about a point it declares inside,
and agrees with the winding number when the polygon is flat or its leftmost vertex tells the chains apart. -/
theorem ymono_winding (hne : vs ≠ []) (hc : Convex vs) (p : Vec2 K) :
    ∃ b, pnpYMonotone (splitYPolylines vs) p = .ok b ∧ (b = true → winding vs p ≠ 0) ∧
      (Flat vs ∨ Clear vs → b = (winding vs p != 0)) := by
  obtain ⟨hmin, hmax, hleft, hright⟩ := yExtremes_spec hne
  generalize hE : yExtremes vs = E at hmin hmax hleft hright
  obtain ⟨m, hm, hmy, hmlo, hmf⟩ := id hmin
  obtain ⟨M, hM, hMy, hMhi, hMf⟩ := id hmax
  obtain ⟨V, hV, hVx, hVlo, hVf⟩ := id hleft
  obtain ⟨X, hX, hXx, hXhi, hXf⟩ := id hright
  have lo : ∀ v ∈ vs, m.y ≤ v.y := fun v hv => by have := hmlo v hv; simp only at this hmy; linarith
  have hi : ∀ v ∈ vs, v.y ≤ M.y := fun v hv => by have := hMhi v hv; simp only at this hMy; linarith
  have vl : ∀ v ∈ vs, V.x ≤ v.x := fun v hv => by have := hVlo v hv; simp only at this hVx; linarith
  have xr : ∀ v ∈ vs, v.x ≤ X.x := fun v hv => by have := hXhi v hv; simp only at this hXx; linarith
  have Vmem : V ∈ vs := List.mem_of_getElem? hV
  have Xmem : X ∈ vs := List.mem_of_getElem? hX
  have Mmem : M ∈ vs := List.mem_of_getElem? hM
  have mmem : m ∈ vs := List.mem_of_getElem? hm
  -- points and positions
  have eVm : V = m → E.leftI = E.minI := fun h => firstMin_unique hleft hmin (by rw [hV, hm, h])
  have eVM : V = M → E.leftI = E.maxI := fun h => firstMin_unique hleft hmax (by rw [hV, hM, h])
  have eXm : X = m → E.rightI = E.minI := fun h => firstMin_unique hright hmin (by rw [hX, hm, h])
  have eXM : X = M → E.rightI = E.maxI := fun h => firstMin_unique hright hmax (by rw [hX, hM, h])
  have clear : Clear vs → E.leftI ≠ E.minI ∧
      ¬ (E.leftI = E.maxI ∧ E.rightI = E.minI) := by
    intro h
    obtain ⟨c1, c2⟩ := h m M V X (firstMin_isFirst hmin hm) (firstMin_isFirst hmax hM) (firstMin_isFirst hleft hV) (firstMin_isFirst hright hX)
    refine ⟨fun he => c1 ?_, fun he => c2 ⟨?_, ?_⟩⟩
    · rw [he, hm] at hV; injection hV with hV; exact hV.symm
    · rw [he.1, hM] at hV; injection hV with hV; exact hV.symm
    · rw [he.2, hm] at hX; injection hX with hX; exact hX.symm
  have vert : ¬ Flat vs → ¬ (∀ v ∈ vs, v.x = V.x) ∧ ¬ (∀ v ∈ vs, v.x = X.x) :=
    fun hf => ⟨fun h => hf (flat_of_x h), fun h => hf (flat_of_x h)⟩
  have leftright : ¬ Flat vs → E.leftI ≠ E.rightI := by
    intro hf he
    rw [he, hX] at hV
    injection hV with hV
    exact (vert hf).1 (fun v hv => le_antisymm (hV ▸ xr v hv) (vl v hv))
  have hi_lt : E.minI < vs.length := (List.getElem?_eq_some_iff.mp hm).1
  have hM_lt : E.maxI < vs.length := (List.getElem?_eq_some_iff.mp hM).1
  have flatU : Flat vs → ∀ e ∈ edges vs, ∀ v ∈ vs, side e.1 e.2 v ≤ 0 := fun hf e he v hv =>
    (hf _ (edges_mem he).1 _ (edges_mem he).2 v hv).le
  have flatD : Flat vs → ∀ e ∈ edges vs, ∀ v ∈ vs, 0 ≤ side e.1 e.2 v := fun hf e he v hv =>
    (hf _ (edges_mem he).1 _ (edges_mem he).2 v hv).ge
  -- the four situations
  have useU : ∀ {Bu Bd : List (Vec2 K)}, Cut vs m M Bu Bd → m.y < M.y → ¬ Flat vs →
      ((V ∈ Bu ∧ V ≠ m ∧ V ≠ M) ∨ (X ∈ Bd ∧ X ≠ m ∧ X ≠ M)) → ∀ e ∈ edges vs, ∀ v ∈ vs, side e.1 e.2 v ≤ 0 := by
    intro Bu Bd cut hlt hf hor
    rcases hc.1 with ho | ho
    · exfalso
      rcases hor with ⟨h1, h2, h3⟩ | ⟨h1, h2, h3⟩
      · exact cut.sideU hc hlt (ρ := 1) (Or.inl rfl) h1 h2 h3 (fun v hv => by simpa using vl v hv) (vert hf).1
          (fun e he v hv => by simpa using ho e he v hv)
      · exact cut.sideD hc hlt (ρ := -1) (Or.inr rfl) h1 h2 h3 (fun v hv => by simpa using xr v hv) (vert hf).2
          (fun e he v hv => by simpa using ho e he v hv)
    · exact ho
  have useD : ∀ {Bu Bd : List (Vec2 K)}, Cut vs m M Bu Bd → m.y < M.y → ¬ Flat vs →
      ((V ∈ Bd ∧ V ≠ m ∧ V ≠ M) ∨ (X ∈ Bu ∧ X ≠ m ∧ X ≠ M)) → ∀ e ∈ edges vs, ∀ v ∈ vs, 0 ≤ side e.1 e.2 v := by
    intro Bu Bd cut hlt hf hor
    rcases hc.1 with ho | ho
    · exact ho
    · exfalso
      rcases hor with ⟨h1, h2, h3⟩ | ⟨h1, h2, h3⟩
      · exact cut.sideD hc hlt (ρ := 1) (Or.inl rfl) h1 h2 h3 (fun v hv => by simpa using vl v hv) (vert hf).1
          (fun e he v hv => by have := ho e he v hv; linarith)
      · exact cut.sideU hc hlt (ρ := -1) (Or.inr rfl) h1 h2 h3 (fun v hv => by simpa using xr v hv) (vert hf).2
          (fun e he v hv => by have := ho e he v hv; linarith)
  have hyx : ∀ l : List (Vec2 K), (l.map fun v => (v.y, v.x)) = l.map yx := fun _ => rfl
  rcases lt_trichotomy E.minI E.maxI with hlt | heq | hlt
  · -- lowest before highest
    obtain ⟨A, x, B, y, C, hvs, hA, hB, e1, e2, e3⟩ := cut hlt hM_lt
    have hxm : x = m := by
      rw [hvs, ← hA, List.getElem?_append_right le_rfl] at hm; simpa using hm
    have hyM : y = M := by
      rw [hvs, ← hB, List.getElem?_append_right (by omega)] at hM
      rw [show A.length + 1 + B.length - A.length = B.length + 1 by omega, List.getElem?_cons_succ, List.getElem?_append_right le_rfl] at hM
      simpa using hM
    subst hxm hyM
    have hcut : Cut vs x y B (C ++ A) := by
      refine ⟨e3, ?_, ?_, lo, hi⟩
      · rw [hvs]; exact fun v hv => cut_memU hv
      · rw [hvs]; exact fun v hv => cut_memD hv
    have hylt : x.y < y.y := by
      rcases lt_or_eq_of_le (hi x mmem) with h | h
      · exact h
      · exfalso
        have := hMf _ x hlt hm
        simp only at this hMy; linarith
    have posV := cut_mem (by rw [← hvs]; exact hV)
    have posX := cut_mem (by rw [← hvs]; exact hX)
    rw [hB, hA] at posV posX
    unfold splitYPolylines
    simp only [hE, hlt, if_true, hyx]
    rw [← List.map_take, ← List.map_drop, e1, ← List.map_drop, ← List.map_take, ← List.map_append, e2,
      upward_up hylt.le, upward_down hylt]
    split <;> rename_i hcond
    · obtain ⟨b, hb, hb1, hb2⟩ := hcut.testU hc p
      refine ⟨b, hb, hb1, fun hg => hb2 ?_⟩
      by_cases hf : Flat vs
      · exact flatU hf
      · have hcl := clear (hg.resolve_left hf)
        refine useU hcut hylt hf ?_
        rcases hcond with h | h | h
        · left
          exact ⟨posV.1 (by omega) (by omega), fun h' => by have := eVm h'; omega, fun h' => by have := eVM h'; omega⟩
        · right
          exact ⟨posX.2.1 (by omega), fun h' => by have := eXm h'; omega, fun h' => by have := eXM h'; omega⟩
        · right
          exact ⟨posX.2.2 (by omega), fun h' => by have := eXm h'; omega, fun h' => by have := eXM h'; omega⟩
    · obtain ⟨b, hb, hb1, hb2⟩ := hcut.testD hc p
      refine ⟨b, hb, hb1, fun hg => hb2 ?_⟩
      by_cases hf : Flat vs
      · exact flatD hf
      · have hcl := clear (hg.resolve_left hf)
        have hlr := leftright hf
        refine useD hcut hylt hf ?_
        by_cases hlm : E.leftI = E.maxI
        · right
          exact ⟨posX.1 (by omega) (by omega), fun h' => by have := eXm h'; omega, fun h' => by have := eXM h'; omega⟩
        · left
          refine ⟨?_, fun h' => by have := eVm h'; omega, fun h' => by have := eVM h'; omega⟩
          by_cases hl : E.leftI < E.minI
          · exact posV.2.1 hl
          · exact posV.2.2 (by omega)
  · -- all at one height
    have hmM : m = M := by rw [heq, hM] at hm; injection hm with hm; exact hm.symm
    have hw : winding vs p = 0 := winding_range lo hi (m := m) (M := M) (by rw [hmM]; exact fun h => absurd h.1 (not_lt.mpr h.2))
    rw [hw]
    refine ⟨false, ?_, by simp, fun _ => rfl⟩
    have ally : ∀ v ∈ vs, v.y = m.y := fun v hv => le_antisymm (hmM ▸ hi v hv) (lo v hv)
    have key : ∀ l r : List (Vec2 K), l ≠ [] → r ≠ [] → (∀ v ∈ l ++ r, v.y = m.y) → pnpYMonotone (l.map yx, r.map yx) p = .ok false := by
      intro l r hl hr hv
      obtain ⟨ml, l', rfl⟩ := List.exists_cons_of_ne_nil hl
      obtain ⟨mr, r', rfl⟩ := List.exists_cons_of_ne_nil hr
      have e1 : ml.y = m.y := hv _ (by simp)
      have e2 : mr.y = m.y := hv _ (by simp)
      have e3 := hv ((ml :: l').getLast (by simp)) (by rw [List.mem_append]; exact Or.inl (List.getLast_mem _))
      have e4 := hv ((mr :: r').getLast (by simp)) (by rw [List.mem_append]; exact Or.inr (List.getLast_mem _))
      obtain ⟨s1, -⟩ := ymono_spec (l := ml :: l') (r := mr :: r') rfl (List.getLast?_eq_some_getLast (by simp)) rfl
        (List.getLast?_eq_some_getLast (by simp)) (by rw [e1, e2]) (by rw [e3, e4]) (fun v h => by rw [hv v h, e1])
        (fun v h => by rw [hv v h, e3]) p
      rw [e1, e3] at s1
      exact s1 (fun h => absurd h.1 (not_lt.mpr h.2))
    have upw : ∀ l : List (Vec2 K), ∃ l', upward (l.map yx) = l'.map yx ∧ (l' = l ∨ l' = l.reverse) := by
      intro l
      unfold upward
      split
      · split
        · exact ⟨l.reverse, by rw [List.map_reverse], Or.inr rfl⟩
        · exact ⟨l, rfl, Or.inl rfl⟩
      · exact ⟨l, rfl, Or.inl rfl⟩
    unfold splitYPolylines
    simp only [hE, heq, lt_irrefl, if_false, hyx]
    rw [← List.map_take, ← List.map_drop, ← List.map_drop, ← List.map_append]
    obtain ⟨l1, h1, h1'⟩ := upw ((vs.take (E.maxI + 1)).drop E.maxI)
    obtain ⟨l2, h2, h2'⟩ := upw (vs.drop E.maxI ++ vs.take (E.maxI + 1))
    rw [h1, h2]
    have mem1 : ∀ v ∈ l1, v ∈ vs := by
      intro v hv
      have : v ∈ (vs.take (E.maxI + 1)).drop E.maxI := by
        rcases h1' with rfl | rfl
        exacts [hv, List.mem_reverse.mp hv]
      exact List.mem_of_mem_take (List.mem_of_mem_drop this)
    have mem2 : ∀ v ∈ l2, v ∈ vs := by
      intro v hv
      have : v ∈ vs.drop E.maxI ++ vs.take (E.maxI + 1) := by
        rcases h2' with rfl | rfl
        exacts [hv, List.mem_reverse.mp hv]
      rcases List.mem_append.mp this with h | h
      exacts [List.mem_of_mem_drop h, List.mem_of_mem_take h]
    have ne1 : l1 ≠ [] := by
      intro h
      have : ((vs.take (E.maxI + 1)).drop E.maxI) = [] := by
        rcases h1' with h' | h'
        · rw [← h', h]
        · rw [h] at h'; exact List.reverse_eq_nil_iff.mp h'.symm
      have := congrArg List.length this
      simp at this; omega
    have ne2 : l2 ≠ [] := by
      intro h
      have : vs.drop E.maxI ++ vs.take (E.maxI + 1) = [] := by
        rcases h2' with h' | h'
        · rw [← h', h]
        · rw [h] at h'; exact List.reverse_eq_nil_iff.mp h'.symm
      have := congrArg List.length this
      simp at this; omega
    split
    · exact key l1 l2 ne1 ne2 (fun v hv => by rcases List.mem_append.mp hv with h | h; exacts [ally v (mem1 v h), ally v (mem2 v h)])
    · exact key l2 l1 ne2 ne1 (fun v hv => by rcases List.mem_append.mp hv with h | h; exacts [ally v (mem2 v h), ally v (mem1 v h)])
  · -- highest before lowest
    obtain ⟨A, x, B, y, C, hvs, hA, hB, e1, e2, e3⟩ := cut hlt hi_lt
    have hxM : x = M := by
      rw [hvs, ← hA, List.getElem?_append_right le_rfl] at hM; simpa using hM
    have hym : y = m := by
      rw [hvs, ← hB, List.getElem?_append_right (by omega)] at hm
      rw [show A.length + 1 + B.length - A.length = B.length + 1 by omega, List.getElem?_cons_succ, List.getElem?_append_right le_rfl] at hm
      simpa using hm
    subst hxM hym
    have hcut : Cut vs y x (C ++ A) B := by
      refine ⟨List.perm_append_comm.trans e3, ?_, ?_, lo, hi⟩
      · rw [hvs]; exact fun v hv => cut_memD hv
      · rw [hvs]; exact fun v hv => cut_memU hv
    have hylt : y.y < x.y := by
      rcases lt_or_eq_of_le (hi y mmem) with h | h
      · exact h
      · exfalso
        have := hmf _ x hlt hM
        simp only at this hmy; linarith
    have posV := cut_mem (by rw [← hvs]; exact hV)
    have posX := cut_mem (by rw [← hvs]; exact hX)
    rw [hB, hA] at posV posX
    unfold splitYPolylines
    simp only [hE, not_lt.mpr hlt.le, if_false, hyx]
    rw [← List.map_take, ← List.map_drop, e1, ← List.map_drop, ← List.map_take, ← List.map_append, e2,
      upward_down hylt, upward_up hylt.le]
    split <;> rename_i hcond
    · obtain ⟨b, hb, hb1, hb2⟩ := hcut.testD hc p
      refine ⟨b, hb, hb1, fun hg => hb2 ?_⟩
      by_cases hf : Flat vs
      · exact flatD hf
      · have hcl := clear (hg.resolve_left hf)
        refine useD hcut hylt hf ?_
        rcases hcond with h | h | h
        · left
          exact ⟨posV.1 (by omega) (by omega), fun h' => by have := eVm h'; omega, fun h' => by have := eVM h'; omega⟩
        · right
          exact ⟨posX.2.2 (by omega), fun h' => by have := eXm h'; omega, fun h' => by have := eXM h'; omega⟩
        · right
          exact ⟨posX.2.1 (by omega), fun h' => by have := eXm h'; omega, fun h' => by have := eXM h'; omega⟩
    · obtain ⟨b, hb, hb1, hb2⟩ := hcut.testU hc p
      refine ⟨b, hb, hb1, fun hg => hb2 ?_⟩
      by_cases hf : Flat vs
      · exact flatU hf
      · have hcl := clear (hg.resolve_left hf)
        have hlr := leftright hf
        refine useU hcut hylt hf ?_
        by_cases hlm : E.leftI = E.maxI
        · right
          exact ⟨posX.1 (by omega) (by omega), fun h' => by have := eXm h'; omega, fun h' => by have := eXM h'; omega⟩
        · left
          refine ⟨?_, fun h' => by have := eVm h'; omega, fun h' => by have := eVM h'; omega⟩
          by_cases hl : E.leftI < E.maxI
          · exact posV.2.1 hl
          · exact posV.2.2 (by omega)

end Polygon
end Planar
