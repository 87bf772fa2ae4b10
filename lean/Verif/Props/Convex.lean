import Verif.Lemmas.Convex
import Verif.Props.PolyState
/- Property C45: `is_convex`. -/
set_option linter.unusedSectionVars false
namespace Planar
open Spec Polygon
variable {K : Type} [Field K] [LinearOrder K] [IsStrictOrderedRing K]

/-- The edges that are not null. -/
def solid (vs : List (Vec2 K)) : List (Vec2 K × Vec2 K) := (edges vs).filter fun e => (vec e).truthy

theorem truthy_iff (e : Vec2 K × Vec2 K) : (vec e).truthy = true ↔ e.1 ≠ e.2 := by
  rw [Ne, Vec2.ext_iff']
  simp only [Vec2.truthy, vec, Vec2.sub_x, Vec2.sub_y, Bool.or_eq_true, bne_iff_ne, ne_eq, sub_eq_zero]
  constructor
  · rintro (h | h) ⟨h1, h2⟩
    exacts [h h1.symm, h h2.symm]
  · intro h
    by_contra hc
    push Not at hc
    exact h ⟨hc.1.symm, hc.2.symm⟩

theorem edgeVectors_eq (vs : List (Vec2 K)) : edgeVectors vs = (edges vs).map vec := by
  rw [← range_map_edges, List.map_map]; rfl

theorem solid_map (vs : List (Vec2 K)) : (edgeVectors vs).filter Vec2.truthy = (solid vs).map vec := by
  rw [edgeVectors_eq, List.filter_map]; rfl

theorem edges_last {vs : List (Vec2 K)} (h : 2 ≤ vs.length) :
    ∃ e, (edges vs).getLast? = some e ∧ vec e = nth vs (-1) - nth vs (-2) := by
  have hl : 0 < (edges vs).length := by rw [edges_length]; omega
  refine ⟨(nth vs (-2), nth vs (-1)), ?_, rfl⟩
  rw [← range_map_edges, List.getLast?_map, List.getLast?_range, if_neg (by omega)]
  simp only [Option.map_some, Option.some.injEq, Prod.mk.injEq]
  constructor
  · have : (((vs.length - 1 : Nat) : Int) - 1) = ((vs.length - 2 : Nat) : Int) := by omega
    rw [this, nth_ofNat _ _ (by omega)]
    exact (nth_neg vs 2 (by omega) (by omega)).symm
  · rw [nth_ofNat _ _ (by omega)]
    exact (nth_neg vs 1 (by omega) (by omega)).symm

/-- What `is_convex` computes, in terms of the non-null edges. -/
theorem cv_iff (vs : List (Vec2 K)) : cv vs = true ↔
    (((nth vs (-1) - nth vs (-2)) :: (solid vs).map vec).IsChain (fun a b => 0 ≤ a.cross b) ∨
      ((nth vs (-1) - nth vs (-2)) :: (solid vs).map vec).IsChain (fun a b => a.cross b ≤ 0)) ∧
    changes (lexDir (nth vs (-1) - nth vs (-2))) ((solid vs).map vec) ≤ 2 := by
  unfold cv classifyRun
  simp only [solid_map]
  have h1 := loop_convex ((solid vs).map vec) (nth vs (-1) - nth vs (-2)) (lexDir (nth vs (-1) - nth vs (-2))) 0 0 0 (Or.inl rfl)
  have h2 := loop_changes ((solid vs).map vec) (nth vs (-1) - nth vs (-2)) (lexDir (nth vs (-1) - nth vs (-2))) 0 0 0
  simp only [ne_eq, show ¬ (0 : Int) = -1 by decide, show ¬ (0 : Int) = 1 by decide, not_false_eq_true, true_and] at h1
  rw [← h1]
  constructor
  · intro h
    split at h
    · rename_i h3
      refine ⟨h, ?_⟩
      rw [h2 h] at h3; omega
    · simp at h
  · rintro ⟨h, h3⟩
    rw [if_pos]
    · exact h
    · rw [h2 h]; omega

theorem side_linked {e f : Vec2 K × Vec2 K} (h : f.1 = e.2) : side e.1 e.2 f.2 = (vec e).cross (vec f) := by
  simp only [side, vec, Vec2.cross, Vec2.sub_x, Vec2.sub_y, h]; ring

/-- Adjacent edges of a path. -/
theorem path_chain {a b : Vec2 K} {l : List (Vec2 K × Vec2 K)} (h : IsPath a l b) : l.IsChain fun e f => f.1 = e.2 := by
  induction l generalizing a with
  | nil => exact List.isChain_nil
  | cons e l ih =>
    have hl := ih h.2
    cases l with
    | nil => exact List.isChain_singleton _
    | cons f l => exact List.isChain_cons_cons.mpr ⟨h.2.1, hl⟩

theorem path_last {a b : Vec2 K} {l : List (Vec2 K × Vec2 K)} {e : Vec2 K × Vec2 K} (h : IsPath a l b)
    (he : l.getLast? = some e) : e.2 = b := by
  induction l generalizing a with
  | nil => simp at he
  | cons f l ih =>
    cases l with
    | nil => simp at he; subst he; exact h.2
    | cons g l => rw [List.getLast?_cons_cons] at he; exact ih h.2 he

theorem getLast?_filter_of {α : Type} {p : α → Bool} {l : List α} {e : α} (h : l.getLast? = some e) (hp : p e = true) :
    (l.filter p).getLast? = some e := by
  obtain ⟨l', rfl⟩ := List.getLast?_eq_some_iff.mp h
  simp [List.filter_append, hp]

theorem solid_path {vs : List (Vec2 K)} (h : vs ≠ []) : IsPath (vs.getLast h) (solid vs) (vs.getLast h) := by
  apply isPath_filter _ _ (edges_path h)
  intro e he
  by_contra hc
  have := (truthy_iff e).mpr hc
  simp [this] at he

theorem solid_mem {vs : List (Vec2 K)} {e : Vec2 K × Vec2 K} : e ∈ solid vs ↔ e ∈ edges vs ∧ e.1 ≠ e.2 := by
  rw [solid, List.mem_filter, truthy_iff]

/-- Every starting point of an edge of a closed path starts an edge that is not null, unless all edges are null. -/
theorem solid_start {a b : Vec2 K} {l : List (Vec2 K × Vec2 K)} (h : IsPath a l b) : ∀ e ∈ l,
    e.1 = b ∨ ∃ f ∈ l.filter (fun e => (vec e).truthy), f.1 = e.1 := by
  induction l generalizing a with
  | nil => simp
  | cons g l ih =>
    intro e he
    have key : ∀ e ∈ l, e.1 = b ∨ ∃ f ∈ (g :: l).filter (fun e => (vec e).truthy), f.1 = e.1 := by
      intro e he
      rcases ih h.2 e he with h' | ⟨f, hf, h'⟩
      · exact Or.inl h'
      · refine Or.inr ⟨f, ?_, h'⟩
        rw [List.filter_cons]; split <;> simp [hf]
    rcases List.mem_cons.mp he with rfl | he
    · by_cases ht : (vec e).truthy = true
      · exact Or.inr ⟨e, by simp [ht], rfl⟩
      · have hn : e.1 = e.2 := by
          by_contra hc; exact ht ((truthy_iff e).mpr hc)
        cases l with
        | nil => left; rw [hn]; exact h.2
        | cons k l =>
          have := key k (by simp)
          rw [show k.1 = e.1 by rw [hn]; exact h.2.1] at this
          exact this
    · exact key e he

theorem vertex_start {vs : List (Vec2 K)} {v : Vec2 K} (hv : v ∈ vs) (hs : solid vs ≠ []) : ∃ f ∈ solid vs, f.1 = v := by
  have hne : vs ≠ [] := List.ne_nil_of_mem hv
  have hp := edges_path hne
  have hsp := solid_path hne
  -- the closing vertex
  obtain ⟨f0, l0, hf0⟩ := List.exists_cons_of_ne_nil hs
  have hz : f0.1 = vs.getLast hne := by rw [hf0] at hsp; exact hsp.1
  have hstart : v = vs.getLast hne ∨ ∃ e ∈ edges vs, e.1 = v := by
    rw [edges_ne_nil hne]
    have : ∀ (l : List (Vec2 K)) (a : Vec2 K) (hl : l ≠ []), v ∈ l → v = l.getLast hl ∨ ∃ e ∈ edgesFrom a l, e.1 = v := by
      intro l
      induction l with
      | nil => intro a hl; exact absurd rfl hl
      | cons b l ih =>
        intro a hl hvl
        cases l with
        | nil => left; simpa using hvl
        | cons c l =>
          rcases List.mem_cons.mp hvl with rfl | hvl
          · right; exact ⟨(v, c), by simp [edgesFrom], rfl⟩
          · rcases ih b (by simp) hvl with h | ⟨e, he, h⟩
            · left; rw [List.getLast_cons (by simp)]; exact h
            · right; exact ⟨e, by rw [edgesFrom_cons]; exact List.mem_cons_of_mem _ he, h⟩
    exact this vs _ hne hv
  have hz' : ∃ f ∈ solid vs, f.1 = vs.getLast hne := ⟨f0, by rw [hf0]; simp, hz⟩
  rcases hstart with rfl | ⟨e, he, rfl⟩
  · exact hz'
  · rcases solid_start hp e he with h | h
    · rw [h]; exact hz'
    · exact h

theorem lexLe_lexDir {a b : Vec2 K} (h : LexLe a b) (hne : a ≠ b) : lexDir (b - a) = -1 := by
  rw [lexDir_rt]
  rcases h with h | ⟨h, h'⟩
  · left; simpa using h
  · right
    refine ⟨by simp [h], ?_⟩
    have : a.y ≠ b.y := fun hc => hne (Vec2.ext h hc)
    simpa using lt_of_le_of_ne h' this

theorem lexLe_lexDir' {a b : Vec2 K} (h : LexLe b a) (hne : a ≠ b) : lexDir (b - a) = 1 := by
  rw [lexDir_lf]
  rcases h with h | ⟨h, h'⟩
  · left; simpa using h
  · right
    refine ⟨by simp [h], ?_⟩
    have : b.y ≠ a.y := fun hc => hne (Vec2.ext h.symm hc.symm)
    simpa using lt_of_le_of_ne h' this

theorem lexLe_of_dir {a b : Vec2 K} (h : lexDir (b - a) = -1) : LexLe a b := by
  rw [lexDir_rt] at h
  rcases h with h | ⟨h, h'⟩
  · left; simpa using h
  · right; simp at h h'; exact ⟨by linarith, h'.le⟩

theorem lexLe_of_dir' {a b : Vec2 K} (h : lexDir (b - a) = 1) : LexLe b a := by
  rw [lexDir_lf] at h
  rcases h with h | ⟨h, h'⟩
  · left; simpa using h
  · right; simp at h h'; exact ⟨by linarith, h'.le⟩

/-- The turns of a closed path whose vertices are all on one side of its edges. -/
theorem chain_of_side {vs : List (Vec2 K)} (h2 : 2 ≤ vs.length) (r : K → Prop) (r0 : r 0)
    (h : ∀ e ∈ edges vs, ∀ v ∈ vs, r (side e.1 e.2 v)) :
    ((nth vs (-1) - nth vs (-2)) :: (solid vs).map vec).IsChain (fun a b => r (a.cross b)) := by
  have hne : vs ≠ [] := by rintro rfl; simp at h2
  have hp := solid_path hne
  have hsub : ∀ e ∈ solid vs, e ∈ edges vs := fun e he => (solid_mem.mp he).1
  have hl : ((solid vs).map vec).IsChain (fun a b => r (a.cross b)) := by
    rw [List.isChain_map]
    apply (path_chain hp).imp_of_mem_imp
    intro e f he hf hef
    rw [← side_linked hef]
    exact h e (hsub e he) _ (edges_mem (hsub f hf)).2
  obtain ⟨e, he, hev⟩ := edges_last h2
  refine List.IsChain.cons hl ?_
  intro y hy
  rw [List.head?_map, Option.mem_map] at hy
  obtain ⟨f, hf, rfl⟩ := hy
  rw [← hev]
  by_cases ht : (vec e).truthy = true
  · have hl := getLast?_filter_of (p := fun e => (vec e).truthy) he ht
    have h1 := path_last hp hl
    have hfs : f ∈ solid vs := List.mem_of_mem_head? hf
    have h3 : f.1 = vs.getLast hne := by
      cases hs : solid vs with
      | nil => rw [hs] at hf; simp at hf
      | cons g l => rw [hs] at hf hp; simp at hf; subst hf; exact hp.1
    rw [← side_linked (h3.trans h1.symm)]
    exact h e (List.mem_of_mem_getLast? he) _ (edges_mem (hsub f hfs)).2
  · have : e.1 = e.2 := by by_contra hc; exact ht ((truthy_iff e).mpr hc)
    have : (vec e).cross (vec f) = 0 := by simp [vec, Vec2.cross, this]
    rw [this]; exact r0

theorem cv_of_convex {vs : List (Vec2 K)} (h2 : 2 ≤ vs.length) (h : Convex vs) : cv vs = true := by
  rw [cv_iff]
  constructor
  · rcases h.1 with h | h
    · left; exact chain_of_side h2 (fun k => 0 ≤ k) le_rfl h
    · right; exact chain_of_side h2 (fun k => k ≤ 0) le_rfl h
  · obtain ⟨there, back, ⟨n, hr⟩, ht, hb⟩ := h.2
    have dirT : ∀ e ∈ there.filter (fun e => (vec e).truthy), lexDir (vec e) = -1 := by
      intro e he
      rw [List.mem_filter, truthy_iff] at he
      exact lexLe_lexDir (ht e he.1) he.2
    have dirB : ∀ e ∈ back.filter (fun e => (vec e).truthy), lexDir (vec e) = 1 := by
      intro e he
      rw [List.mem_filter, truthy_iff] at he
      exact lexLe_lexDir' (hb e he.1) he.2
    have hd : lexDir (nth vs (-1) - nth vs (-2)) = 0 ∨
        lexDir (nth vs (-1) - nth vs (-2)) = ((((solid vs).map vec).getLast?).map lexDir).getD 0 := by
      obtain ⟨e, he, hev⟩ := edges_last h2
      rw [← hev]
      by_cases ht : (vec e).truthy = true
      · right
        rw [List.getLast?_map, solid, getLast?_filter_of he ht]; rfl
      · left
        have : e.1 = e.2 := by by_contra hc; exact ht ((truthy_iff e).mpr hc)
        simp [vec, lexDir, this]
    rw [List.rotate_eq_drop_append_take_mod] at hr
    have hsplit := List.take_append_drop (n % (edges vs).length) (edges vs)
    generalize (edges vs).take (n % (edges vs).length) = X at hr hsplit
    generalize (edges vs).drop (n % (edges vs).length) = Y at hr hsplit
    rcases List.append_eq_append_iff.mp hr with ⟨m, h3, h4⟩ | ⟨m, h3, h4⟩
    · -- there = Y ++ m, X = m ++ back
      have : solid vs = m.filter (fun e => (vec e).truthy) ++ back.filter (fun e => (vec e).truthy) ++
          Y.filter (fun e => (vec e).truthy) := by
        rw [solid, ← hsplit, h4]; simp
      rw [this, List.map_append, List.map_append] at hd ⊢
      refine changes_three (s := -1) (Or.inr rfl) ?_ ?_ ?_ hd
      · intro v hv
        obtain ⟨e, he, rfl⟩ := List.mem_map.mp hv
        exact dirT e (by rw [h3, List.filter_append]; simp only [List.mem_append]; exact Or.inr he)
      · intro v hv
        obtain ⟨e, he, rfl⟩ := List.mem_map.mp hv
        exact dirB e he
      · intro v hv
        obtain ⟨e, he, rfl⟩ := List.mem_map.mp hv
        exact dirT e (by rw [h3, List.filter_append]; simp only [List.mem_append]; exact Or.inl he)
    · -- Y = there ++ m, back = m ++ X
      have : solid vs = X.filter (fun e => (vec e).truthy) ++ there.filter (fun e => (vec e).truthy) ++
          m.filter (fun e => (vec e).truthy) := by
        rw [solid, ← hsplit, h3]; simp
      rw [this, List.map_append, List.map_append] at hd ⊢
      refine changes_three (s := 1) (Or.inl rfl) ?_ ?_ ?_ hd
      · intro v hv
        obtain ⟨e, he, rfl⟩ := List.mem_map.mp hv
        exact dirB e (by rw [h4, List.filter_append]; simp only [List.mem_append]; exact Or.inr he)
      · intro v hv
        obtain ⟨e, he, rfl⟩ := List.mem_map.mp hv
        exact dirT e he
      · intro v hv
        obtain ⟨e, he, rfl⟩ := List.mem_map.mp hv
        exact dirB e (by rw [h4, List.filter_append]; simp only [List.mem_append]; exact Or.inl he)

theorem convex_of_cv {vs : List (Vec2 K)} (h2 : 2 ≤ vs.length) (hl : nth vs (-1) ≠ nth vs (-2)) (h : cv vs = true) :
    Convex vs := by
  rw [cv_iff] at h
  obtain ⟨hch, hdc⟩ := h
  have hne : vs ≠ [] := by rintro rfl; simp at h2
  have hp := solid_path hne
  obtain ⟨e0, he0, hev0⟩ := edges_last h2
  have ht0 : (vec e0).truthy = true := by
    by_contra hc
    rw [truthy_iff, not_not] at hc
    apply hl
    have : vec e0 = ⟨0, 0⟩ := by apply Vec2.ext <;> simp [vec, hc]
    rw [this] at hev0
    have hx := congrArg Vec2.x hev0
    have hy := congrArg Vec2.y hev0
    simp at hx hy
    exact Vec2.ext (by linarith) (by linarith)
  have hlast : (solid vs).getLast? = some e0 := getLast?_filter_of (p := fun e => (vec e).truthy) he0 ht0
  have hsne : solid vs ≠ [] := by intro hc; rw [hc] at hlast; simp at hlast
  have hall : ∀ v ∈ (solid vs).map vec, lexDir v = 1 ∨ lexDir v = -1 := by
    intro v hv
    obtain ⟨e, he, rfl⟩ := List.mem_map.mp hv
    rcases lexDir_cases (vec e) with h | h | ⟨-, hx, hy⟩
    · exact Or.inr h
    · exact Or.inl h
    · exfalso
      apply (solid_mem.mp he).2
      simp only [vec, Vec2.sub_x, Vec2.sub_y] at hx hy
      exact Vec2.ext (by linarith) (by linarith)
  have hd : lexDir (nth vs (-1) - nth vs (-2)) = 1 ∨ lexDir (nth vs (-1) - nth vs (-2)) = -1 := by
    rw [← hev0]; exact hall _ (List.mem_map_of_mem (List.mem_of_mem_getLast? hlast))
  obtain ⟨A, B, C, hABC, hA, hB, hC⟩ := changes_blocks _ _ hd hall hdc
  obtain ⟨PAB, PC, hP, hPAB, hPC⟩ := List.map_eq_append_iff.mp hABC
  obtain ⟨PA, PB, hPab, hPA, hPB⟩ := List.map_eq_append_iff.mp hPAB
  subst hPab hPA hPB hPC
  simp only [List.mem_map, forall_exists_index, and_imp, forall_apply_eq_imp_iff₂] at hA hB hC
  generalize hdd : lexDir (nth vs (-1) - nth vs (-2)) = d at *
  -- the path
  have hpath := hp
  rw [hP] at hpath
  obtain ⟨c2, hpAB, hpC⟩ := isPath_append.mp hpath
  obtain ⟨c1, hpA, hpB⟩ := isPath_append.mp hpAB
  have hpCA := isPath_append.mpr ⟨_, hpC, hpA⟩
  constructor
  · -- one side
    have key : ∀ σ : K, (σ = 1 ∨ σ = -1) →
        ((nth vs (-1) - nth vs (-2)) :: (solid vs).map vec).IsChain (fun a b => 0 ≤ σ * a.cross b) →
        ∀ e ∈ edges vs, ∀ v ∈ vs, 0 ≤ σ * side e.1 e.2 v := by
      intro σ hσ hc
      have hcP : (solid vs).IsChain fun e f => 0 ≤ σ * (vec e).cross (vec f) := by
        rw [← List.isChain_map (f := vec) (R := fun a b : Vec2 K => 0 ≤ σ * a.cross b)]; exact hc.tail
      have hwrap : ∀ f ∈ (solid vs).head?, 0 ≤ σ * (vec e0).cross (vec f) := by
        intro f hf
        cases hs : solid vs with
        | nil => exact absurd hs hsne
        | cons g l =>
          rw [hs] at hf hc; simp at hf; subst hf
          rw [hev0]; exact (List.isChain_cons_cons.mp hc).1
      rw [hP] at hcP hwrap hlast
      rw [List.isChain_append, List.isChain_append] at hcP
      obtain ⟨⟨cA, cB, -⟩, cC, -⟩ := hcP
      have cCA : (PC ++ PA).IsChain fun e f => 0 ≤ σ * (vec e).cross (vec f) := by
        rw [List.isChain_append]
        refine ⟨cC, cA, ?_⟩
        intro x hx y hy
        have hx' : x = e0 := by
          rw [List.getLast?_append, Option.mem_def.mp hx] at hlast; simpa using hlast
        subst hx'
        apply hwrap
        rw [List.append_assoc, List.head?_append, Option.mem_def.mp hy]; simp
      have hcore : ∀ e ∈ solid vs, ∀ f ∈ solid vs, 0 ≤ σ * side e.1 e.2 f.1 := by
        rw [hP]
        rcases hd with rfl | rfl
        · -- the blocks A and C go to the left
          have := core hσ hpB hpCA (fun e he => lexDir_rt.mp (hB e he))
            (fun e he => lexDir_lf.mp (by rcases List.mem_append.mp he with h | h; exacts [hC e h, hA e h])) cB cCA
          intro e he f hf
          exact this e (by simp at he ⊢; tauto) f (by simp at hf ⊢; tauto)
        · have := core hσ hpCA hpB (fun e he => lexDir_rt.mp (by rcases List.mem_append.mp he with h | h; exacts [hC e h, hA e h]))
            (fun e he => lexDir_lf.mp (by simpa using hB e he)) cCA cB
          intro e he f hf
          exact this e (by simp at he ⊢; tauto) f (by simp at hf ⊢; tauto)
      intro e he v hv
      by_cases hn : e.1 = e.2
      · simp [side, hn]
      · obtain ⟨f, hf, rfl⟩ := vertex_start hv hsne
        exact hcore e (solid_mem.mpr ⟨he, hn⟩) f hf
    rcases hch with hc | hc
    · left
      intro e he v hv
      have := key 1 (Or.inl rfl) (by simpa using hc) e he v hv
      simpa using this
    · right
      intro e he v hv
      have := key (-1) (Or.inr rfl) (by simpa using hc) e he v hv
      linarith
  · -- once around
    have hfil : (edges vs).filter (fun e => (vec e).truthy) = PA ++ PB ++ PC := hP
    obtain ⟨XAB, XC, hX, hXAB, hXC⟩ := List.filter_eq_append_iff.mp hfil
    obtain ⟨XA, XB, hXab, hXA, hXB⟩ := List.filter_eq_append_iff.mp hXAB
    subst hXab
    have lift : ∀ (X P : List (Vec2 K × Vec2 K)), X.filter (fun e => (vec e).truthy) = P → ∀ e ∈ X, e.1 = e.2 ∨ e ∈ P := by
      intro X P h e he
      by_cases hn : e.1 = e.2
      · exact Or.inl hn
      · right; rw [← h, List.mem_filter, truthy_iff]; exact ⟨he, hn⟩
    have refl : ∀ a : Vec2 K, LexLe a a := fun a => Or.inr ⟨rfl, le_rfl⟩
    rcases hd with rfl | rfl
    · refine ⟨XB, XC ++ XA, ?_, ?_, ?_⟩
      · rw [hX, List.append_assoc, ← List.append_assoc XB]; exact List.isRotated_append
      · intro e he
        rcases lift XB PB hXB e he with h | h
        · rw [h]; exact refl _
        · exact lexLe_of_dir (hB e h)
      · intro e he
        rcases List.mem_append.mp he with he | he
        · rcases lift XC PC hXC e he with h | h
          · rw [h]; exact refl _
          · exact lexLe_of_dir' (hC e h)
        · rcases lift XA PA hXA e he with h | h
          · rw [h]; exact refl _
          · exact lexLe_of_dir' (hA e h)
    · refine ⟨XC ++ XA, XB, ?_, ?_, ?_⟩
      · rw [hX, List.append_assoc XC]; exact List.isRotated_append
      · intro e he
        rcases List.mem_append.mp he with he | he
        · rcases lift XC PC hXC e he with h | h
          · rw [h]; exact refl _
          · exact lexLe_of_dir (hC e h)
        · rcases lift XA PA hXA e he with h | h
          · rw [h]; exact refl _
          · exact lexLe_of_dir (hA e h)
      · intro e he
        rcases lift XB PB hXB e he with h | h
        · rw [h]; exact refl _
        · have := hB e h; rw [neg_neg] at this; exact lexLe_of_dir' this

theorem lexLe_total (a b : Vec2 K) : LexLe a b ∨ LexLe b a := by
  rcases lt_trichotomy a.x b.x with h | h | h
  · exact Or.inl (Or.inl h)
  · rcases le_total a.y b.y with h' | h'
    · exact Or.inl (Or.inr ⟨h, h'⟩)
    · exact Or.inr (Or.inr ⟨h.symm, h'⟩)
  · exact Or.inr (Or.inl h)

/-- Every triangle is convex. -/
theorem triangle_convex (a b c : Vec2 K) : Convex [a, b, c] := by
  have he : edges [a, b, c] = [(c, a), (a, b), (b, c)] := rfl
  constructor
  · unfold OneSided
    rw [he]
    simp only [List.mem_cons, List.not_mem_nil, or_false, forall_eq_or_imp, forall_eq, side]
    rcases le_total 0 ((b.x - a.x) * (c.y - a.y) - (b.y - a.y) * (c.x - a.x)) with h | h
    · left; refine ⟨⟨?_, ?_, ?_⟩, ⟨?_, ?_, ?_⟩, ?_, ?_, ?_⟩ <;> linarith
    · right; refine ⟨⟨?_, ?_, ?_⟩, ⟨?_, ?_, ?_⟩, ?_, ?_, ?_⟩ <;> linarith
  · unfold OnceAround
    rw [he]
    have rot1 : [(c, a), (a, b), (b, c)].IsRotated [(a, b), (b, c), (c, a)] := ⟨1, rfl⟩
    have rot2 : [(c, a), (a, b), (b, c)].IsRotated [(b, c), (c, a), (a, b)] := ⟨2, rfl⟩
    rcases lexLe_total c a with h1 | h1 <;> rcases lexLe_total a b with h2 | h2 <;> rcases lexLe_total b c with h3 | h3
    · exact ⟨[(c, a), (a, b), (b, c)], [], List.IsRotated.refl _, by simp [h1, h2, h3], by simp⟩
    · exact ⟨[(c, a), (a, b)], [(b, c)], List.IsRotated.refl _, by simp [h1, h2], by simp [h3]⟩
    · exact ⟨[(b, c), (c, a)], [(a, b)], rot2, by simp [h1, h3], by simp [h2]⟩
    · exact ⟨[(c, a)], [(a, b), (b, c)], List.IsRotated.refl _, by simp [h1], by simp [h2, h3]⟩
    · exact ⟨[(a, b), (b, c)], [(c, a)], rot1, by simp [h2, h3], by simp [h1]⟩
    · exact ⟨[(a, b)], [(b, c), (c, a)], rot1, by simp [h2], by simp [h1, h3]⟩
    · exact ⟨[(b, c)], [(c, a), (a, b)], rot2, by simp [h3], by simp [h1, h2]⟩
    · exact ⟨[], [(c, a), (a, b), (b, c)], List.IsRotated.refl _, by simp, by simp [h1, h2, h3]⟩

theorem isConvex_after {eps : K} {vs : List (Vec2 K)} {s0 : Polygon K} (h : Polygon.new vs = .ok s0) (ops : List (PolyOp K)) :
    3 ≤ (s0.after eps ops).verts.length ∧ (s0.after eps ops).isConvex.1 = convexVal (s0.after eps ops).verts := by
  have h3 : 3 ≤ vs.length := by
    by_contra hc
    rw [(C43_new vs none none).1 (by omega)] at h
    simp at h
  rw [C44_fresh_new eps vs h3] at h
  injection h with h
  subst h
  obtain ⟨i1, i2, -⟩ := inv_after (inv_fromPoints eps vs) ops
  exact ⟨by rw [i2]; exact h3, (inv_isConvex i1).1⟩

/-- **C45** a convex polygon is recognised after every history of reads and edits, whatever its size, its starting
vertex, its direction, repeated vertices or vertices in the middle of an edge. -/
theorem C45_complete (eps : K) (vs : List (Vec2 K)) (s0 : Polygon K) (h : Polygon.new vs = .ok s0) (ops : List (PolyOp K))
    (hc : Convex (s0.after eps ops).verts) : (s0.after eps ops).isConvex.1 = true := by
  obtain ⟨h3, h'⟩ := isConvex_after (eps := eps) h ops
  rw [h', convexVal]
  split
  · exact cv_of_convex (by omega) hc
  · rfl

/-- **C45** after every history of reads and edits `is_convex` is True exactly for the convex polygons, when the last
two vertices are distinct. (Partial: see `C45_violated` for polygons whose last two vertices are the same point.) -/
theorem C45_iff_partial (eps : K) (vs : List (Vec2 K)) (s0 : Polygon K) (h : Polygon.new vs = .ok s0) (ops : List (PolyOp K))
    (hl : let ws := (s0.after eps ops).verts; ws[ws.length - 1]? ≠ ws[ws.length - 2]?) :
    (s0.after eps ops).isConvex.1 = true ↔ Convex (s0.after eps ops).verts := by
  refine ⟨?_, C45_complete eps vs s0 h ops⟩
  obtain ⟨h3, h'⟩ := isConvex_after (eps := eps) h ops
  rw [h', convexVal]
  generalize (s0.after eps ops).verts = vs at *
  split
  · apply convex_of_cv (by omega)
    have e1 : nth vs (-1) = vs[vs.length - 1] := nth_neg vs 1 (by omega) (by omega)
    have e2 : nth vs (-2) = vs[vs.length - 2] := nth_neg vs 2 (by omega) (by omega)
    rw [e1, e2]
    intro hc
    apply hl
    rw [List.getElem?_eq_getElem (by omega), List.getElem?_eq_getElem (by omega)]
    exact congrArg some hc
  · intro _
    match vs, h3 with
    | [a, b, c], _ => exact triangle_convex a b c
    | a :: b :: c :: d :: t, _ => simp at *

/-- **C45** is violated when the last two vertices coincide: this polygon has a reflex corner at its last vertex, and
`is_convex` is True. -/
theorem C45_violated : ∃ s : Polygon ℚ, Polygon.new [⟨4, 0⟩, ⟨4, 4⟩, ⟨0, 4⟩, ⟨0, 0⟩, ⟨2, 1⟩, (⟨2, 1⟩ : Vec2 ℚ)] = .ok s ∧
    s.isConvex.1 = true ∧ ¬ Convex [⟨4, 0⟩, ⟨4, 4⟩, ⟨0, 4⟩, ⟨0, 0⟩, ⟨2, 1⟩, (⟨2, 1⟩ : Vec2 ℚ)] := by
  refine ⟨_, rfl, by decide +kernel, ?_⟩
  rintro ⟨h | h, -⟩
  · have := h (⟨0, 0⟩, ⟨2, 1⟩) (by decide +kernel) ⟨4, 0⟩ (by decide +kernel)
    norm_num [side] at this
  · have := h (⟨0, 0⟩, ⟨2, 1⟩) (by decide +kernel) ⟨4, 4⟩ (by decide +kernel)
    norm_num [side] at this

/-- A convex and a non-convex polygon with distinct last vertices: both sides of `C45_iff_partial` occur. -/
example : (∃ s : Polygon ℚ, Polygon.new [⟨0, 0⟩, ⟨4, 1⟩, ⟨5, 5⟩, (⟨1, 4⟩ : Vec2 ℚ)] = .ok s ∧ s.isConvex.1 = true) ∧
    ∃ s : Polygon ℚ, Polygon.new [⟨0, 0⟩, ⟨4, 0⟩, ⟨1, 1⟩, (⟨0, 4⟩ : Vec2 ℚ)] = .ok s ∧ s.isConvex.1 = false :=
  ⟨⟨_, rfl, by decide +kernel⟩, ⟨_, rfl, by decide +kernel⟩⟩

end Planar
