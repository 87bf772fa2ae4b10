import Verif.Spec.Convex
import Verif.Lemmas.PolyState
/- Convex chains: the geometry behind `_classify`. -/
set_option linter.unusedSectionVars false
namespace Planar
open Spec
variable {K : Type} [Field K] [LinearOrder K] [IsStrictOrderedRing K]

/-- A vector that points right, or straight up. -/
def Rt (v : Vec2 K) : Prop := 0 < v.x ∨ (v.x = 0 ∧ 0 < v.y)

/-- A vector that points left, or straight down. -/
def Lf (v : Vec2 K) : Prop := v.x < 0 ∨ (v.x = 0 ∧ v.y < 0)

theorem lexDir_rt {v : Vec2 K} : Polygon.lexDir v = -1 ↔ Rt v := by
  unfold Polygon.lexDir Rt
  rcases lt_trichotomy v.x 0 with h | h | h
  · simp [h, not_lt.mpr h.le, h.ne]
  · rcases lt_trichotomy v.y 0 with h' | h' | h' <;> simp [h, h', not_lt.mpr h'.le]
  · simp [h]

theorem lexDir_lf {v : Vec2 K} : Polygon.lexDir v = 1 ↔ Lf v := by
  unfold Polygon.lexDir Lf
  rcases lt_trichotomy v.x 0 with h | h | h
  · simp [h, not_lt.mpr h.le]
  · rcases lt_trichotomy v.y 0 with h' | h' | h' <;> simp [h, h', not_lt.mpr h'.le]
  · simp [h, not_lt.mpr h.le, h.ne']

theorem lexDir_cases (v : Vec2 K) : Polygon.lexDir v = -1 ∨ Polygon.lexDir v = 1 ∨ (Polygon.lexDir v = 0 ∧ v.x = 0 ∧ v.y = 0) := by
  unfold Polygon.lexDir
  rcases lt_trichotomy v.x 0 with h | h | h
  · simp [h, not_lt.mpr h.le]
  · rcases lt_trichotomy v.y 0 with h' | h' | h' <;> simp [h, h', not_lt.mpr h'.le]
  · simp [h]

theorem rt_neg {v : Vec2 K} : Rt (-v) ↔ Lf v := by
  unfold Rt Lf; simp [neg_eq_zero]

theorem lf_neg {v : Vec2 K} : Lf (-v) ↔ Rt v := by
  unfold Rt Lf; simp [neg_eq_zero]

/-- In a half plane the order by angle is transitive. -/
theorem rt_trans {σ : K} (hσ : σ = 1 ∨ σ = -1) {u v w : Vec2 K} (hu : Rt u) (hv : Rt v) (hw : Rt w)
    (h1 : 0 ≤ σ * u.cross v) (h2 : 0 ≤ σ * v.cross w) : 0 ≤ σ * u.cross w := by
  simp only [Vec2.cross] at *
  have hux : 0 ≤ u.x := by rcases hu with h | h; exacts [h.le, h.1.ge]
  have hwx : 0 ≤ w.x := by rcases hw with h | h; exacts [h.le, h.1.ge]
  rcases hv with hv | ⟨hv, hv'⟩
  · have : v.x * (σ * (u.x * w.y - u.y * w.x)) = u.x * (σ * (v.x * w.y - v.y * w.x)) + w.x * (σ * (u.x * v.y - u.y * v.x)) := by ring
    have h3 := mul_nonneg hux h2
    have h4 := mul_nonneg hwx h1
    by_contra hc
    have := mul_neg_of_pos_of_neg hv (not_le.mp hc)
    linarith
  · simp only [hv, zero_mul, mul_zero, zero_sub, sub_zero] at h1 h2
    rcases hσ with rfl | rfl
    · simp only [one_mul] at *
      have hw0 : w.x = 0 := by
        by_contra hc
        have := mul_pos hv' (lt_of_le_of_ne hwx (Ne.symm hc))
        linarith
      rcases hw with h | h
      · exact absurd hw0 h.ne'
      · rw [hw0]; simpa using mul_nonneg hux h.2.le
    · have hu0 : u.x = 0 := by
        by_contra hc
        have := mul_pos (lt_of_le_of_ne hux (Ne.symm hc)) hv'
        linarith
      rcases hu with h | h
      · exact absurd hu0 h.ne'
      · rw [hu0]; have := mul_nonneg h.2.le hwx; linarith

/-- The vector of an edge. -/
def vec (e : Vec2 K × Vec2 K) : Vec2 K := e.2 - e.1

/-- The listed edges lead from `a` to `b`. -/
def IsPath : Vec2 K → List (Vec2 K × Vec2 K) → Vec2 K → Prop
  | a, [], b => a = b
  | a, e :: l, b => e.1 = a ∧ IsPath e.2 l b

theorem isPath_append {a b : Vec2 K} {l m : List (Vec2 K × Vec2 K)} :
    IsPath a (l ++ m) b ↔ ∃ c, IsPath a l c ∧ IsPath c m b := by
  induction l generalizing a with
  | nil => simp [IsPath]
  | cons e l ih => simp only [List.cons_append, IsPath, ih]; constructor
                   · rintro ⟨h, c, h1, h2⟩; exact ⟨c, ⟨h, h1⟩, h2⟩
                   · rintro ⟨c, ⟨h, h1⟩, h2⟩; exact ⟨h, c, h1, h2⟩

theorem isPath_end {a b c : Vec2 K} {l : List (Vec2 K × Vec2 K)} (h1 : IsPath a l b) (h2 : IsPath a l c) : b = c := by
  induction l generalizing a with
  | nil => exact h1.symm.trans h2
  | cons e l ih => exact ih h1.2 h2.2

theorem isPath_filter {a b : Vec2 K} {l : List (Vec2 K × Vec2 K)} (q : Vec2 K × Vec2 K → Bool)
    (hq : ∀ e, q e = false → e.1 = e.2) (h : IsPath a l b) : IsPath a (l.filter q) b := by
  induction l generalizing a with
  | nil => exact h
  | cons e l ih =>
    rw [List.filter_cons]
    cases hb : q e with
    | true => simp only [if_true]; exact ⟨h.1, ih h.2⟩
    | false =>
      simp only [Bool.false_eq_true, if_false]
      have := ih h.2
      rwa [← hq e hb, h.1] at this

/-- A linear inequality that holds for the edges of a path holds for its end points. -/
theorem path_nonneg {a b : Vec2 K} {l : List (Vec2 K × Vec2 K)} (h : IsPath a l b) (p q : K)
    (hl : ∀ e ∈ l, 0 ≤ p * (vec e).x + q * (vec e).y) : 0 ≤ p * (b.x - a.x) + q * (b.y - a.y) := by
  induction l generalizing a with
  | nil => rw [show a = b from h]; simp
  | cons e l ih =>
    have h1 := hl e (by simp)
    have h2 := ih h.2 (fun f hf => hl f (by simp [hf]))
    simp only [vec, Vec2.sub_x, Vec2.sub_y, h.1] at h1
    linarith

theorem edgesFrom_path (a : Vec2 K) (l : List (Vec2 K)) : IsPath a (edgesFrom a l) ((a :: l).getLast (by simp)) := by
  induction l generalizing a with
  | nil => simp [IsPath, edgesFrom]
  | cons b l ih => simp only [edgesFrom, IsPath, true_and]; simpa using ih b

theorem edges_path {vs : List (Vec2 K)} (h : vs ≠ []) : IsPath (vs.getLast h) (edges vs) (vs.getLast h) := by
  rw [edges_ne_nil h]
  have := edgesFrom_path (vs.getLast h) vs
  rwa [List.getLast_cons h] at this

/-- Pairwise order by angle in a chain of edges that point to the right. -/
theorem rt_pairwise {σ : K} (hσ : σ = 1 ∨ σ = -1) {l : List (Vec2 K × Vec2 K)} (hr : ∀ e ∈ l, Rt (vec e))
    (hc : l.IsChain fun e f => 0 ≤ σ * (vec e).cross (vec f)) : l.Pairwise fun e f => 0 ≤ σ * (vec e).cross (vec f) := by
  induction l with
  | nil => exact List.Pairwise.nil
  | cons e l ih =>
    have hl := ih (fun f hf => hr f (by simp [hf])) hc.tail
    refine List.Pairwise.cons ?_ hl
    cases l with
    | nil => simp
    | cons f l =>
      have hef : 0 ≤ σ * (vec e).cross (vec f) := hc.rel_head
      intro g hg
      rcases List.mem_cons.mp hg with rfl | hg'
      · exact hef
      · exact rt_trans hσ (hr e (by simp)) (hr f (by simp)) (hr g (by simp [hg'])) hef (List.rel_of_pairwise_cons hl hg')

/-- All the starting points of a closed chain that goes to the right and back, turning always the same way, are on the
same side of the edges that go to the right. -/
theorem core_right {σ : K} (hσ : σ = 1 ∨ σ = -1) {a b : Vec2 K} {R L : List (Vec2 K × Vec2 K)} (hR : IsPath a R b)
    (hL : IsPath b L a) (rR : ∀ e ∈ R, Rt (vec e)) (rL : ∀ e ∈ L, Lf (vec e))
    (pR : R.Pairwise fun e f => 0 ≤ σ * (vec e).cross (vec f))
    (pL : L.Pairwise fun e f => 0 ≤ σ * (vec e).cross (vec f)) :
    ∀ e ∈ R, ∀ f ∈ R ++ L, 0 ≤ σ * side e.1 e.2 f.1 := by
  intro e he f hf
  obtain ⟨R1, R2, rfl⟩ := List.append_of_mem he
  obtain ⟨c, hR1, hR2⟩ := isPath_append.mp hR
  obtain ⟨hc, hR2⟩ := hR2
  subst hc
  rw [List.pairwise_append] at pR
  obtain ⟨p1, p2, p12⟩ := pR
  rw [List.pairwise_cons] at p2
  -- forwards and backwards inequalities
  have fwd : ∀ g, IsPath e.2 g f.1 → (∀ x ∈ g, 0 ≤ σ * (vec e).cross (vec x)) → 0 ≤ σ * side e.1 e.2 f.1 := by
    intro g hg hx
    have := path_nonneg hg (-(σ * (vec e).y)) (σ * (vec e).x) (fun x hxg => by
      have := hx x hxg; simp only [Vec2.cross] at this; linarith)
    simp only [side, vec, Vec2.sub_x, Vec2.sub_y] at *
    linarith
  have bwd : ∀ g, IsPath f.1 g e.1 → (∀ x ∈ g, σ * (vec e).cross (vec x) ≤ 0) → 0 ≤ σ * side e.1 e.2 f.1 := by
    intro g hg hx
    have := path_nonneg hg (σ * (vec e).y) (-(σ * (vec e).x)) (fun x hxg => by
      have := hx x hxg; simp only [Vec2.cross] at this; linarith)
    simp only [side, vec, Vec2.sub_x, Vec2.sub_y] at *
    linarith
  have anti : ∀ u v : Vec2 K, u.cross v = -(v.cross u) := by intro u v; simp only [Vec2.cross]; ring
  have h1 : ∀ x ∈ R1, σ * (vec e).cross (vec x) ≤ 0 := by
    intro x hx
    have := p12 x hx e (by simp)
    rw [anti] at this; linarith
  have h2 : ∀ x ∈ R2, 0 ≤ σ * (vec e).cross (vec x) := p2.1
  have re := rR e (by simp)
  simp only [List.append_assoc, List.cons_append, List.mem_append, List.mem_cons] at hf
  rcases hf with hf | rfl | hf | hf
  · -- `f` before `e`
    obtain ⟨R3, R4, rfl⟩ := List.append_of_mem hf
    obtain ⟨d, -, h4⟩ := isPath_append.mp hR1
    refine bwd (f :: R4) ⟨rfl, h4.2⟩ fun x hx => h1 x (by simp at hx ⊢; tauto)
  · simp [side]
  · obtain ⟨R3, R4, rfl⟩ := List.append_of_mem hf
    obtain ⟨d, h3, h4⟩ := isPath_append.mp hR2
    rw [← h4.1] at h3
    exact fwd R3 h3 fun x hx => h2 x (by simp [hx])
  · obtain ⟨L1, L2, rfl⟩ := List.append_of_mem hf
    obtain ⟨d, h3, h4⟩ := isPath_append.mp hL
    obtain ⟨hd, h4⟩ := h4
    subst hd
    rw [List.pairwise_append] at pL
    obtain ⟨q1, q2, q12⟩ := pL
    rw [List.pairwise_cons] at q2
    have nn : ∀ u v : Vec2 K, (-u).cross (-v) = u.cross v := by intro u v; simp only [Vec2.cross, Vec2.neg_x, Vec2.neg_y]; ring
    have nl : ∀ u v : Vec2 K, (-u).cross v = -(u.cross v) := by intro u v; simp only [Vec2.cross, Vec2.neg_x, Vec2.neg_y]; ring
    have nr : ∀ u v : Vec2 K, u.cross (-v) = -(u.cross v) := by intro u v; simp only [Vec2.cross, Vec2.neg_x, Vec2.neg_y]; ring
    have rf := rt_neg.mpr (rL f (by simp))
    rcases le_total 0 (σ * (vec e).cross (vec f)) with hs | hs
    · refine fwd (R2 ++ L1) (isPath_append.mpr ⟨_, hR2, h3⟩) fun x hx => ?_
      rcases List.mem_append.mp hx with hx | hx
      · exact h2 x hx
      · have hxf := q12 x hx f (by simp)
        have := rt_trans hσ (rt_neg.mpr (rL x (by simp [hx]))) rf re (by rw [nn]; exact hxf)
          (by rw [nl, anti]; linarith)
        rw [nl, anti] at this; linarith
    · refine bwd (f :: L2 ++ R1) (isPath_append.mpr ⟨_, ⟨rfl, h4⟩, hR1⟩) fun x hx => ?_
      rcases List.mem_append.mp hx with hx | hx
      · rcases List.mem_cons.mp hx with rfl | hx
        · exact hs
        · have hfx := q2.1 x hx
          have := rt_trans hσ re rf (rt_neg.mpr (rL x (by simp [hx]))) (by rw [nr]; linarith) (by rw [nn]; exact hfx)
          rw [nr] at this; linarith
      · exact h1 x hx

/-- The point reflection of an edge. -/
def negE (e : Vec2 K × Vec2 K) : Vec2 K × Vec2 K := (-e.1, -e.2)

theorem vec_negE (e : Vec2 K × Vec2 K) : vec (negE e) = -vec e := by
  apply Vec2.ext <;> simp [vec, negE] <;> ring

theorem isPath_negE {a b : Vec2 K} {l : List (Vec2 K × Vec2 K)} (h : IsPath a l b) : IsPath (-a) (l.map negE) (-b) := by
  induction l generalizing a with
  | nil => rw [show a = b from h]; rfl
  | cons e l ih => exact ⟨by simp [negE, h.1], ih h.2⟩

theorem core {σ : K} (hσ : σ = 1 ∨ σ = -1) {a b : Vec2 K} {R L : List (Vec2 K × Vec2 K)} (hR : IsPath a R b)
    (hL : IsPath b L a) (rR : ∀ e ∈ R, Rt (vec e)) (rL : ∀ e ∈ L, Lf (vec e))
    (cR : R.IsChain fun e f => 0 ≤ σ * (vec e).cross (vec f))
    (cL : L.IsChain fun e f => 0 ≤ σ * (vec e).cross (vec f)) :
    ∀ e ∈ R ++ L, ∀ f ∈ R ++ L, 0 ≤ σ * side e.1 e.2 f.1 := by
  have cross_neg : ∀ e f : Vec2 K × Vec2 K, (vec (negE e)).cross (vec (negE f)) = (vec e).cross (vec f) := by
    intro e f; rw [vec_negE, vec_negE]; simp only [Vec2.cross, Vec2.neg_x, Vec2.neg_y]; ring
  have rL' : ∀ e ∈ L.map negE, Rt (vec e) := by
    intro e he
    obtain ⟨f, hf, rfl⟩ := List.mem_map.mp he
    rw [vec_negE, rt_neg]; exact rL f hf
  have rR' : ∀ e ∈ R.map negE, Lf (vec e) := by
    intro e he
    obtain ⟨f, hf, rfl⟩ := List.mem_map.mp he
    rw [vec_negE, lf_neg]; exact rR f hf
  have pR := rt_pairwise hσ rR cR
  have pL' := rt_pairwise hσ rL' (by rw [List.isChain_map]; simpa only [cross_neg] using cL)
  have pL : L.Pairwise fun e f => 0 ≤ σ * (vec e).cross (vec f) := by
    rw [List.pairwise_map] at pL'; simpa only [cross_neg] using pL'
  have pR' : (R.map negE).Pairwise fun e f => 0 ≤ σ * (vec e).cross (vec f) := by
    rw [List.pairwise_map]; simpa only [cross_neg] using pR
  intro e he f hf
  rcases List.mem_append.mp he with he | he
  · exact core_right hσ hR hL rR rL pR pL e he f hf
  · have := core_right hσ (isPath_negE hL) (isPath_negE hR) rL' rR' pL' pR' (negE e) (List.mem_map_of_mem he) (negE f)
      (by rw [← List.map_append]; exact List.mem_map_of_mem (by simp at hf ⊢; tauto))
    simp only [side, negE, Vec2.neg_x, Vec2.neg_y] at this ⊢
    have e2 : σ * ((e.2.x - e.1.x) * (f.1.y - e.1.y) - (e.2.y - e.1.y) * (f.1.x - e.1.x)) =
      σ * ((-e.2.x - -e.1.x) * (-f.1.y - -e.1.y) - (-e.2.y - -e.1.y) * (-f.1.x - -e.1.x)) := by ring
    rw [e2]; exact this

/-! ### The loop of `_classify` -/

/-- The direction changes counted by the loop. -/
def changes : Int → List (Vec2 K) → Nat
  | _, [] => 0
  | d, e :: es => (if Polygon.lexDir e = -d then 1 else 0) + changes (Polygon.lexDir e) es

theorem loop_changes (l : List (Vec2 K)) (u : Vec2 K) (d : Int) (dc : Nat) (sg : Int) (n : Nat)
    (h : (Polygon.classifyLoop l u d dc sg n).convex = true) :
    (Polygon.classifyLoop l u d dc sg n).dirChanges = dc + changes d l := by
  induction l generalizing u d dc sg n with
  | nil => rfl
  | cons e l ih =>
    unfold Polygon.classifyLoop at h ⊢
    unfold changes
    simp only at h ⊢
    split at h <;> rename_i h1
    · simp only [h1, if_true] at h ⊢
      split at h <;> rename_i h2
      · simp at h
      · simp only [h2, if_false]; rw [ih _ _ _ _ _ h]; split <;> omega
    · simp only [h1, if_false] at h ⊢
      split at h <;> rename_i h2
      · simp only [h2, if_true] at h ⊢
        split at h <;> rename_i h3
        · simp at h
        · simp only [h3, if_false]; rw [ih _ _ _ _ _ h]; split <;> omega
      · simp only [h2, if_false] at h ⊢; rw [ih _ _ _ _ _ h]; split <;> omega

/-- The loop ends normally iff all the turns are to the same side. -/
theorem loop_convex (l : List (Vec2 K)) (u : Vec2 K) (d : Int) (dc : Nat) (sg : Int) (n : Nat)
    (hs : sg = 0 ∨ sg = 1 ∨ sg = -1) :
    (Polygon.classifyLoop l u d dc sg n).convex = true ↔
      (sg ≠ -1 ∧ (u :: l).IsChain fun a b => 0 ≤ a.cross b) ∨ (sg ≠ 1 ∧ (u :: l).IsChain fun a b => a.cross b ≤ 0) := by
  induction l generalizing u d dc sg n with
  | nil =>
    simp only [Polygon.classifyLoop, List.isChain_singleton, and_true, true_iff]
    omega
  | cons e l ih =>
    unfold Polygon.classifyLoop
    simp only [List.isChain_cons_cons]
    rcases lt_trichotomy (u.cross e) 0 with h | h | h
    · simp only [gt_iff_lt, not_lt.mpr h.le, h, if_true, if_false, not_le.mpr h, h.le, false_and, and_false, false_or, true_and]
      split <;> rename_i h1
      · simp [h1]
      · rw [ih _ _ _ _ _ (by simp)]
        constructor
        · rintro (h' | h')
          · exact absurd rfl h'.1
          · exact ⟨h1, h'.2⟩
        · rintro h'; exact Or.inr ⟨by decide, h'.2⟩
    · simp only [gt_iff_lt, h, lt_irrefl, if_false, le_refl, true_and]
      exact ih _ _ _ _ _ hs
    · simp only [gt_iff_lt, h, if_true, not_le.mpr h, h.le, false_and, and_false, or_false, true_and]
      split <;> rename_i h1
      · simp [h1]
      · rw [ih _ _ _ _ _ (by simp)]
        constructor
        · rintro (h' | h')
          · exact ⟨h1, h'.2⟩
          · exact absurd rfl h'.1
        · rintro h'; exact Or.inl ⟨by decide, h'.2⟩

/-- `angle_sign` stays 0 iff there is no turn. -/
theorem loop_angle (l : List (Vec2 K)) (u : Vec2 K) (d : Int) (dc : Nat) (sg : Int) (n : Nat)
    (h : (Polygon.classifyLoop l u d dc sg n).convex = true) :
    (Polygon.classifyLoop l u d dc sg n).angleSign = 0 ↔ sg = 0 ∧ (u :: l).IsChain fun a b => a.cross b = 0 := by
  induction l generalizing u d dc sg n with
  | nil => simp [Polygon.classifyLoop]
  | cons e l ih =>
    unfold Polygon.classifyLoop at h ⊢
    simp only [List.isChain_cons_cons] at h ⊢
    rcases lt_trichotomy (u.cross e) 0 with h1 | h1 | h1
    · simp only [gt_iff_lt, not_lt.mpr h1.le, h1, if_true, if_false] at h ⊢
      split at h <;> rename_i h2
      · simp at h
      · simp only [h2, if_false]
        rw [ih _ _ _ _ _ h]
        simp [h1.ne]
    · simp only [gt_iff_lt, h1, lt_irrefl, if_false, true_and] at h ⊢
      exact ih _ _ _ _ _ h
    · simp only [gt_iff_lt, h1, if_true] at h ⊢
      split at h <;> rename_i h2
      · simp at h
      · simp only [h2, if_false]
        rw [ih _ _ _ _ _ h]
        simp [h1.ne']

theorem loop_count (l : List (Vec2 K)) (u : Vec2 K) (d : Int) (dc : Nat) (sg : Int) (n : Nat)
    (h : (Polygon.classifyLoop l u d dc sg n).convex = true) :
    (Polygon.classifyLoop l u d dc sg n).count = n + l.length := by
  induction l generalizing u d dc sg n with
  | nil => rfl
  | cons e l ih =>
    unfold Polygon.classifyLoop at h ⊢
    simp only at h ⊢
    split at h <;> rename_i h1
    · simp only [h1, if_true] at h ⊢
      split at h <;> rename_i h2
      · simp at h
      · simp only [h2, if_false]; rw [ih _ _ _ _ _ h]; simp; omega
    · simp only [h1, if_false] at h ⊢
      split at h <;> rename_i h2
      · simp only [h2, if_true] at h ⊢
        split at h <;> rename_i h3
        · simp at h
        · simp only [h3, if_false]; rw [ih _ _ _ _ _ h]; simp; omega
      · simp only [h2, if_false] at h ⊢; rw [ih _ _ _ _ _ h]; simp; omega

/-! ### Counting direction changes -/

theorem changes_append (d : Int) (l m : List (Vec2 K)) :
    changes d (l ++ m) = changes d l + changes ((l.getLast?.map Polygon.lexDir).getD d) m := by
  induction l generalizing d with
  | nil => simp [changes]
  | cons e l ih =>
    simp only [List.cons_append, changes, ih, Nat.add_assoc]
    congr 2
    cases l with
    | nil => simp
    | cons f l => simp [List.getLast?_cons_cons, List.getLast?_eq_some_getLast]

theorem changes_const {d s : Int} {l : List (Vec2 K)} (hs : s ≠ 0) (h : ∀ e ∈ l, Polygon.lexDir e = s) :
    changes d l ≤ 1 ∧ (d = s → changes d l = 0) ∧ (l = [] → changes d l = 0) ∧ (d ≠ -s → changes d l = 0) := by
  have key : ∀ (l : List (Vec2 K)) (d : Int), (∀ e ∈ l, Polygon.lexDir e = s) → d ≠ -s → changes d l = 0 := by
    intro l
    induction l with
    | nil => intros; rfl
    | cons e l ih =>
      intro d h hd
      have he := h e (by simp)
      simp only [changes, he]
      rw [ih s (fun f hf => h f (by simp [hf])) (by omega)]
      rw [if_neg (by omega)]
  refine ⟨?_, fun hd => key l d h (by omega), fun hl => by subst hl; rfl, fun hd => key l d h hd⟩
  cases l with
  | nil => simp [changes]
  | cons e l =>
    have he := h e (by simp)
    simp only [changes, he]
    rw [key l s (fun f hf => h f (by simp [hf])) (by omega)]
    split <;> simp

/-- At most two changes of direction: at most three blocks. -/
theorem changes_blocks (d : Int) (l : List (Vec2 K)) (hd : d = 1 ∨ d = -1)
    (hl : ∀ e ∈ l, Polygon.lexDir e = 1 ∨ Polygon.lexDir e = -1) (h : changes d l ≤ 2) :
    ∃ A B C, l = A ++ B ++ C ∧ (∀ e ∈ A, Polygon.lexDir e = d) ∧ (∀ e ∈ B, Polygon.lexDir e = -d) ∧
      (∀ e ∈ C, Polygon.lexDir e = d) := by
  have k0 : ∀ (l : List (Vec2 K)) (d : Int), (d = 1 ∨ d = -1) → (∀ e ∈ l, Polygon.lexDir e = 1 ∨ Polygon.lexDir e = -1) →
      changes d l ≤ 0 → ∀ e ∈ l, Polygon.lexDir e = d := by
    intro l
    induction l with
    | nil => simp
    | cons e l ih =>
      intro d hd hl h f hf
      simp only [changes] at h
      have he := hl e (by simp)
      have : Polygon.lexDir e ≠ -d := by intro hc; simp [hc] at h
      have hed : Polygon.lexDir e = d := by omega
      rcases List.mem_cons.mp hf with rfl | hf
      · exact hed
      · exact ih d hd (fun f hf => hl f (by simp [hf])) (by rw [hed] at h; omega) f hf
  have k1 : ∀ (l : List (Vec2 K)) (d : Int), (d = 1 ∨ d = -1) → (∀ e ∈ l, Polygon.lexDir e = 1 ∨ Polygon.lexDir e = -1) →
      changes d l ≤ 1 → ∃ A B, l = A ++ B ∧ (∀ e ∈ A, Polygon.lexDir e = d) ∧ (∀ e ∈ B, Polygon.lexDir e = -d) := by
    intro l
    induction l with
    | nil => intro d _ _ _; exact ⟨[], [], by simp⟩
    | cons e l ih =>
      intro d hd hl h
      simp only [changes] at h
      have he := hl e (by simp)
      by_cases hed : Polygon.lexDir e = d
      · obtain ⟨A, B, rfl, hA, hB⟩ := ih d hd (fun f hf => hl f (by simp [hf])) (by rw [hed] at h; omega)
        refine ⟨e :: A, B, by simp, ?_, hB⟩
        intro f hf
        rcases List.mem_cons.mp hf with rfl | hf
        exacts [hed, hA f hf]
      · have hed' : Polygon.lexDir e = -d := by omega
        have := k0 l (-d) (by omega) (fun f hf => hl f (by simp [hf])) (by rw [hed'] at h; simp at h; omega)
        refine ⟨[], e :: l, by simp, by simp, ?_⟩
        intro f hf
        rcases List.mem_cons.mp hf with rfl | hf
        exacts [hed', this f hf]
  induction l with
  | nil => exact ⟨[], [], [], by simp⟩
  | cons e l ih =>
    simp only [changes] at h
    have he := hl e (by simp)
    by_cases hed : Polygon.lexDir e = d
    · obtain ⟨A, B, C, rfl, hA, hB, hC⟩ := ih (fun f hf => hl f (by simp [hf])) (by rw [hed] at h; omega)
      refine ⟨e :: A, B, C, by simp, ?_, hB, hC⟩
      intro f hf
      rcases List.mem_cons.mp hf with rfl | hf
      exacts [hed, hA f hf]
    · have hed' : Polygon.lexDir e = -d := by omega
      obtain ⟨B, C, rfl, hB, hC⟩ := k1 l (-d) (by omega) (fun f hf => hl f (by simp [hf])) (by rw [hed'] at h; simp at h; omega)
      refine ⟨[], e :: B, C, by simp, by simp, ?_, by simpa using hC⟩
      intro f hf
      rcases List.mem_cons.mp hf with rfl | hf
      exacts [hed', hB f hf]

/-- Three blocks: at most two changes, counted from the direction of the last vector. -/
theorem changes_three {d s : Int} {A B C : List (Vec2 K)} (hs : s = 1 ∨ s = -1) (hA : ∀ e ∈ A, Polygon.lexDir e = s)
    (hB : ∀ e ∈ B, Polygon.lexDir e = -s) (hC : ∀ e ∈ C, Polygon.lexDir e = s)
    (hd : d = 0 ∨ d = ((A ++ B ++ C).getLast?.map Polygon.lexDir).getD 0) : changes d (A ++ B ++ C) ≤ 2 := by
  have last : ∀ {l : List (Vec2 K)} {s : Int} (d : Int), (∀ e ∈ l, Polygon.lexDir e = s) →
      (l.getLast?.map Polygon.lexDir).getD d = if l = [] then d else s := by
    intro l s d hl
    cases l with
    | nil => simp
    | cons e l => rw [List.getLast?_eq_some_getLast (by simp)]; simp; exact hl _ (List.getLast_mem (by simp))
  rw [changes_append, changes_append, last _ hA]
  have a := changes_const (d := d) (s := s) (by omega) hA
  have b := changes_const (d := if A = [] then d else s) (s := -s) (by omega) hB
  have hAB : ((A ++ B).getLast?.map Polygon.lexDir).getD d = if B = [] then (if A = [] then d else s) else -s := by
    rw [List.getLast?_append]
    by_cases hB0 : B = []
    · subst hB0; simp [last _ hA]
    · have := last d hB
      simp only [hB0, if_false] at this ⊢
      rw [List.getLast?_eq_some_getLast hB0] at this ⊢
      simpa using this
  rw [hAB]
  have c := changes_const (d := if B = [] then (if A = [] then d else s) else -s) (s := s) (by omega) hC
  have hABC : ((A ++ B ++ C).getLast?.map Polygon.lexDir).getD 0 =
      if C = [] then (if B = [] then (if A = [] then 0 else s) else -s) else s := by
    rw [List.getLast?_append]
    by_cases hC0 : C = []
    · subst hC0
      simp only [List.getLast?_nil, Option.none_or, if_true]
      rw [List.getLast?_append]
      by_cases hB0 : B = []
      · subst hB0; simp [last _ hA]
      · have := last 0 hB
        simp only [hB0, if_false] at this ⊢
        rw [List.getLast?_eq_some_getLast hB0] at this ⊢
        simpa using this
    · have := last 0 hC
      simp only [hC0, if_false] at this ⊢
      rw [List.getLast?_eq_some_getLast hC0] at this ⊢
      simpa using this
  rw [hABC] at hd
  by_cases hA0 : A = [] <;> by_cases hB0 : B = [] <;> by_cases hC0 : C = [] <;>
    simp only [hA0, hB0, hC0, if_true, if_false, changes] at * <;> omega

end Planar
