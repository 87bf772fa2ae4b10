import Verif.Lemmas.Chain
import Verif.Props.Convex
/- The two chains of a convex polygon: what `_split_y_polylines` stores and when the left one is on the left. -/
set_option linter.unusedSectionVars false
namespace Planar
open Spec
namespace Polygon
variable {K : Type} [Field K] [LinearOrder K] [IsStrictOrderedRing K]

/-- The first position at which `g` is least, and its value. -/
def IsFirstMin (g : Vec2 K → K) (l : List (Vec2 K)) (i : Nat) (m : K) : Prop :=
  ∃ v, l[i]? = some v ∧ g v = m ∧ (∀ w ∈ l, m ≤ g w) ∧ ∀ j w, j < i → l[j]? = some w → m < g w

theorem firstMin_step {g : Vec2 K → K} {l : List (Vec2 K)} {i : Nat} {m : K} (h : IsFirstMin g l i m) (v : Vec2 K) :
    IsFirstMin g (l ++ [v]) (if g v < m then l.length else i) (if g v < m then g v else m) := by
  obtain ⟨w, hw, hgw, hmin, hfirst⟩ := h
  split <;> rename_i hlt
  · refine ⟨v, by simp, rfl, ?_, ?_⟩
    · intro u hu
      rcases List.mem_append.mp hu with hu | hu
      · exact hlt.le.trans (hmin u hu)
      · simp at hu; rw [hu]
    · intro j u hj hu
      rw [List.getElem?_append_left hj] at hu
      exact hlt.trans_le (hmin u (List.mem_of_getElem? hu))
  · have hi : i < l.length := (List.getElem?_eq_some_iff.mp hw).1
    refine ⟨w, by rw [List.getElem?_append_left hi]; exact hw, hgw, ?_, ?_⟩
    · intro u hu
      rcases List.mem_append.mp hu with hu | hu
      · exact hmin u hu
      · simp at hu; rw [hu]; exact not_lt.mp hlt
    · intro j u hj hu
      rw [List.getElem?_append_left (by omega)] at hu
      exact hfirst j u hj hu

theorem firstMin_unique {g f : Vec2 K → K} {l : List (Vec2 K)} {i j : Nat} {m n : K} (hi : IsFirstMin g l i m)
    (hj : IsFirstMin f l j n) (h : l[i]? = l[j]?) : i = j := by
  obtain ⟨v, hv, hgv, hmin, hfirst⟩ := hi
  obtain ⟨w, hw, hgw, hmin', hfirst'⟩ := hj
  rw [hv, hw] at h
  injection h with h
  subst h
  rcases lt_trichotomy i j with h | h | h
  · have := hfirst' i v h hv; exact absurd this (by rw [hgw]; exact lt_irrefl _)
  · exact h
  · have := hfirst j v h hw; exact absurd this (by rw [hgv]; exact lt_irrefl _)

theorem yExtremes_spec {vs : List (Vec2 K)} (h : vs ≠ []) :
    IsFirstMin (fun v => v.y) vs (yExtremes vs).minI (yExtremes vs).minY ∧
    IsFirstMin (fun v => -v.y) vs (yExtremes vs).maxI (-(yExtremes vs).maxY) ∧
    IsFirstMin (fun v => v.x) vs (yExtremes vs).leftI (yExtremes vs).minX ∧
    IsFirstMin (fun v => -v.x) vs (yExtremes vs).rightI (-(yExtremes vs).maxX) := by
  obtain ⟨v0, t, rfl⟩ := List.exists_cons_of_ne_nil h
  have n0 : nth (v0 :: t) 0 = v0 := rfl
  unfold yExtremes
  simp only [n0]
  induction t using List.reverseRecOn with
  | nil =>
    have hz : (List.range [v0].length).zip [v0] = [(0, v0)] := rfl
    rw [hz]
    simp only [List.foldl_cons, List.foldl_nil, yExtStep, lt_irrefl, gt_iff_lt, if_false]
    refine ⟨⟨v0, rfl, rfl, by simp, by simp⟩, ⟨v0, rfl, rfl, by simp, by simp⟩, ⟨v0, rfl, rfl, by simp, by simp⟩, ⟨v0, rfl, rfl, by simp, by simp⟩⟩
  | append_singleton t v ih =>
    have ih := ih (by simp) rfl
    have hz : (List.range (v0 :: (t ++ [v])).length).zip (v0 :: (t ++ [v])) =
        (List.range (v0 :: t).length).zip (v0 :: t) ++ [((v0 :: t).length, v)] := by
      have : v0 :: (t ++ [v]) = (v0 :: t) ++ [v] := rfl
      rw [this]
      rw [show ((v0 :: t) ++ [v]).length = (v0 :: t).length + 1 by simp, List.range_succ, List.zip_append (by simp)]
      rfl
    rw [hz, List.foldl_append]
    simp only [List.foldl_cons, List.foldl_nil] at ih ⊢
    generalize (((List.range (v0 :: t).length).zip (v0 :: t)).foldl yExtStep ⟨v0.y, v0.y, v0.x, v0.x, 0, 0, 0, 0⟩) = e at *
    generalize hn : (v0 :: t).length = n at *
    obtain ⟨i1, i2, i3, i4⟩ := ih
    have s1 := firstMin_step i1 v
    have s2 := firstMin_step i2 v
    have s3 := firstMin_step i3 v
    have s4 := firstMin_step i4 v
    rw [hn] at s1 s2 s3 s4
    simp only [neg_lt_neg_iff] at s2 s4
    have step : yExtStep e (n, v) =
        ⟨if v.y < e.minY then v.y else e.minY, if e.maxY < v.y then v.y else e.maxY,
         if v.x < e.minX then v.x else e.minX, if e.maxX < v.x then v.x else e.maxX,
         if v.y < e.minY then n else e.minI, if e.maxY < v.y then n else e.maxI,
         if v.x < e.minX then n else e.leftI, if e.maxX < v.x then n else e.rightI⟩ := by
      unfold yExtStep
      simp only [gt_iff_lt]
      by_cases c1 : v.y < e.minY <;> by_cases c2 : e.maxY < v.y <;> by_cases c3 : v.x < e.minX <;> by_cases c4 : e.maxX < v.x <;>
        simp [c1, c2, c3, c4]
    rw [step]
    refine ⟨s1, ?_, s3, ?_⟩
    · have : (-(if e.maxY < v.y then v.y else e.maxY)) = if e.maxY < v.y then -v.y else -e.maxY := by split <;> rfl
      rw [show (v0 :: (t ++ [v])) = (v0 :: t) ++ [v] from rfl]
      simp only [this]; exact s2
    · have : (-(if e.maxX < v.x then v.x else e.maxX)) = if e.maxX < v.x then -v.x else -e.maxX := by split <;> rfl
      rw [show (v0 :: (t ++ [v])) = (v0 :: t) ++ [v] from rfl]
      simp only [this]; exact s4

/-- Cutting a closed path at two vertices. -/
theorem cut {vs : List (Vec2 K)} {i j : Nat} (hij : i < j) (hj : j < vs.length) :
    ∃ A x B y C, vs = A ++ x :: (B ++ y :: C) ∧ A.length = i ∧ A.length + 1 + B.length = j ∧
      (vs.take (j + 1)).drop i = x :: (B ++ [y]) ∧ vs.drop j ++ vs.take (i + 1) = y :: (C ++ A ++ [x]) ∧
      (edgesFrom x (B ++ [y]) ++ edgesFrom y (C ++ A ++ [x])).Perm (edges vs) := by
  obtain ⟨A, rest, rfl, hA⟩ : ∃ A rest, vs = A ++ rest ∧ A.length = i :=
    ⟨vs.take i, vs.drop i, (List.take_append_drop i vs).symm, by rw [List.length_take]; omega⟩
  rw [List.length_append] at hj
  obtain ⟨x, rest', rfl⟩ := List.exists_cons_of_ne_nil (l := rest) (by intro h; rw [h] at hj; simp at hj; omega)
  obtain ⟨B, r2, rfl, hB⟩ : ∃ B r2, rest' = B ++ r2 ∧ B.length = j - i - 1 :=
    ⟨rest'.take (j - i - 1), rest'.drop (j - i - 1), (List.take_append_drop _ _).symm, by
      rw [List.length_take]; simp at hj; omega⟩
  obtain ⟨y, C, rfl⟩ := List.exists_cons_of_ne_nil (l := r2) (by intro h; rw [h] at hj; simp at hj; omega)
  refine ⟨A, x, B, y, C, rfl, hA, by omega, ?_, ?_, ?_⟩
  · have : A ++ x :: (B ++ y :: C) = (A ++ (x :: (B ++ [y]))) ++ C := by simp
    rw [this, List.take_left' (by simp; omega), List.drop_left' hA]
  · have h1 : (A ++ x :: (B ++ y :: C)).drop j = y :: C := by
      have : A ++ x :: (B ++ y :: C) = (A ++ x :: B) ++ (y :: C) := by simp
      rw [this, List.drop_left' (by simp; omega)]
    have h2 : (A ++ x :: (B ++ y :: C)).take (i + 1) = A ++ [x] := by
      have : A ++ x :: (B ++ y :: C) = (A ++ [x]) ++ (B ++ y :: C) := by simp
      rw [this, List.take_left' (by simp; omega)]
    rw [h1, h2]; simp
  · have hrot : (A ++ x :: (B ++ y :: C)).rotate (A.length + 1) = (B ++ [y]) ++ (C ++ A) ++ [x] := by
      have : A ++ x :: (B ++ y :: C) = (A ++ [x]) ++ (B ++ y :: C) := by simp
      rw [this]
      have h3 : A.length + 1 = (A ++ [x]).length := by simp
      rw [h3, List.rotate_append_length_eq]; simp
    have hp := edges_rotate_perm (A ++ x :: (B ++ y :: C)) (A.length + 1)
    rw [hrot, edges_snoc, List.append_assoc, edgesFrom_append] at hp
    simpa using hp

/-- The index of a vertex tells on which chain it is. -/
theorem cut_mem {A B C : List (Vec2 K)} {x y v : Vec2 K} {k : Nat}
    (h : (A ++ x :: (B ++ y :: C))[k]? = some v) :
    (A.length < k → k < A.length + 1 + B.length → v ∈ B) ∧ (k < A.length → v ∈ C ++ A) ∧
      (A.length + 1 + B.length < k → v ∈ C ++ A) := by
  refine ⟨?_, ?_, ?_⟩
  · intro h1 h2
    rw [List.getElem?_append_right (by omega)] at h
    obtain ⟨d, hd⟩ : ∃ d, k - A.length = d + 1 := ⟨k - A.length - 1, by omega⟩
    rw [hd, List.getElem?_cons_succ, List.getElem?_append_left (by omega)] at h
    exact List.mem_of_getElem? h
  · intro h1
    rw [List.getElem?_append_left h1] at h
    exact List.mem_append.mpr (Or.inr (List.mem_of_getElem? h))
  · intro h1
    rw [List.getElem?_append_right (by omega)] at h
    obtain ⟨d, hd⟩ : ∃ d, k - A.length = d + 1 := ⟨k - A.length - 1, by omega⟩
    rw [hd, List.getElem?_cons_succ, List.getElem?_append_right (by omega)] at h
    obtain ⟨d', hd'⟩ : ∃ d', d - B.length = d' + 1 := ⟨d - B.length - 1, by omega⟩
    rw [hd', List.getElem?_cons_succ] at h
    exact List.mem_append.mpr (Or.inl (List.mem_of_getElem? h))

/-! ### One crossing per chain -/

theorem path_up {a b : Vec2 K} {l : List (Vec2 K × Vec2 K)} {h : K} (hp : IsPath a l b) (h1 : a.y < h) (h2 : h ≤ b.y) :
    ∃ e ∈ l, Up h e := by
  induction l generalizing a with
  | nil => rw [show a = b from hp] at h1; exact absurd h1 (not_lt.mpr h2)
  | cons e l ih =>
    by_cases he : e.2.y < h
    · obtain ⟨f, hf, hu⟩ := ih hp.2 he
      exact ⟨f, by simp [hf], hu⟩
    · exact ⟨e, by simp, by rw [hp.1]; exact h1, not_lt.mp he⟩

theorem path_dn {a b : Vec2 K} {l : List (Vec2 K × Vec2 K)} {h : K} (hp : IsPath a l b) (h1 : b.y < h) (h2 : h ≤ a.y) :
    ∃ e ∈ l, Dn h e := by
  induction l generalizing a with
  | nil => rw [← show a = b from hp] at h1; exact absurd h1 (not_lt.mpr h2)
  | cons e l ih =>
    by_cases he : e.2.y < h
    · exact ⟨e, by simp, he, by rw [hp.1]; exact h2⟩
    · obtain ⟨f, hf, hu⟩ := ih hp.2 (not_lt.mp he)
      exact ⟨f, by simp [hf], hu⟩

/-- Along a path that goes from left to right every edge ends left of the later ones. -/
theorem path_lex {a b : Vec2 K} {l : List (Vec2 K × Vec2 K)} (hp : IsPath a l b) (hl : ∀ e ∈ l, LexLe e.1 e.2) :
    LexLe a b ∧ l.Pairwise (fun e f => LexLe e.2 f.1) := by
  have trans : ∀ {a b c : Vec2 K}, LexLe a b → LexLe b c → LexLe a c := by
    intro a b c h1 h2
    rcases h1 with h1 | ⟨h1, h1'⟩ <;> rcases h2 with h2 | ⟨h2, h2'⟩
    · left; linarith
    · left; linarith
    · left; linarith
    · right; exact ⟨h1.trans h2, h1'.trans h2'⟩
  have start : ∀ {a b : Vec2 K} {l : List (Vec2 K × Vec2 K)}, IsPath a l b → (∀ e ∈ l, LexLe e.1 e.2) →
      LexLe a b ∧ ∀ e ∈ l, LexLe a e.1 := by
    intro a b l
    induction l generalizing a with
    | nil => intro h _; rw [show a = b from h]; exact ⟨Or.inr ⟨rfl, le_rfl⟩, by simp⟩
    | cons e l ih =>
      intro h hl
      obtain ⟨i1, i2⟩ := ih h.2 (fun f hf => hl f (by simp [hf]))
      have he := hl e (by simp)
      rw [h.1] at he
      refine ⟨trans he i1, ?_⟩
      intro f hf
      rcases List.mem_cons.mp hf with rfl | hf
      · rw [h.1]; exact Or.inr ⟨rfl, le_rfl⟩
      · exact trans he (i2 f hf)
  refine ⟨(start hp hl).1, ?_⟩
  induction l generalizing a with
  | nil => exact List.Pairwise.nil
  | cons e l ih =>
    exact List.Pairwise.cons (fun f hf => (start hp.2 (fun f hf => hl f (by simp [hf]))).2 f hf)
      (ih hp.2 (fun f hf => hl f (by simp [hf])))

theorem path_lex' {a b : Vec2 K} {l : List (Vec2 K × Vec2 K)} (hp : IsPath a l b) (hl : ∀ e ∈ l, LexLe e.2 e.1) :
    l.Pairwise (fun e f => LexLe f.1 e.2) := by
  have h := (path_lex (isPath_negE hp) (by
    intro e he
    obtain ⟨f, hf, rfl⟩ := List.mem_map.mp he
    rcases hl f hf with h | ⟨h, h'⟩
    · left; simpa [negE] using h
    · right; simpa [negE] using ⟨h.symm, h'⟩)).2
  rw [List.pairwise_map] at h
  refine h.imp ?_
  intro e f hef
  rcases hef with h | ⟨h, h'⟩
  · left; simpa [negE] using h
  · right; simp [negE] at h h'; exact ⟨h.symm, h'⟩

/-- A rotation of a closed path is a closed path. -/
theorem path_rotate {a : Vec2 K} {l m : List (Vec2 K × Vec2 K)} (h : IsPath a l a) (hr : l.IsRotated m) :
    ∃ b, IsPath b m b := by
  obtain ⟨n, rfl⟩ := hr
  rw [List.rotate_eq_drop_append_take_mod]
  have hs := List.take_append_drop (n % l.length) l
  rw [← hs] at h
  obtain ⟨c, h1, h2⟩ := isPath_append.mp h
  exact ⟨c, isPath_append.mpr ⟨a, h2, h1⟩⟩

theorem pairs_side {vs : List (Vec2 K)} (ho : OneSided vs) {e f : Vec2 K × Vec2 K} (he : e ∈ edges vs) (hf : f ∈ edges vs) :
    (0 ≤ side e.1 e.2 f.1 ∧ 0 ≤ side e.1 e.2 f.2 ∧ 0 ≤ side f.1 f.2 e.1 ∧ 0 ≤ side f.1 f.2 e.2) ∨
      (side e.1 e.2 f.1 ≤ 0 ∧ side e.1 e.2 f.2 ≤ 0 ∧ side f.1 f.2 e.1 ≤ 0 ∧ side f.1 f.2 e.2 ≤ 0) := by
  have h1 := edges_mem he
  have h2 := edges_mem hf
  rcases ho with h | h
  · exact Or.inl ⟨h e he _ h2.1, h e he _ h2.2, h f hf _ h1.1, h f hf _ h1.2⟩
  · exact Or.inr ⟨h e he _ h2.1, h e he _ h2.2, h f hf _ h1.1, h f hf _ h1.2⟩

theorem side_flip (a b p : Vec2 K) : side b a p = -side a b p := by simp only [side]; ring

/-- In a convex polygon at most one edge crosses a height upwards, and at most one downwards. -/
theorem one_crossing {vs : List (Vec2 K)} (hc : Convex vs) (h : K) :
    (edges vs).Pairwise (fun e f => ¬ (Up h e ∧ Up h f)) ∧ (edges vs).Pairwise (fun e f => ¬ (Dn h e ∧ Dn h f)) := by
  obtain ⟨ho, there, back, hr, ht, hb⟩ := hc
  by_cases hne : vs = []
  · subst hne; simp [edges]
  obtain ⟨z, hz⟩ := path_rotate (edges_path hne) hr
  obtain ⟨w, hz1, hz2⟩ := isPath_append.mp hz
  have p1 := (path_lex hz1 ht).2
  have p2 := path_lex' hz2 hb
  have hmem : ∀ e ∈ there ++ back, e ∈ edges vs := fun e he => hr.mem_iff.mpr he
  have symU : Symmetric (fun e f : Vec2 K × Vec2 K => ¬ (Up h e ∧ Up h f)) := fun e f hef hfe => hef ⟨hfe.2, hfe.1⟩
  have symD : Symmetric (fun e f : Vec2 K × Vec2 K => ¬ (Dn h e ∧ Dn h f)) := fun e f hef hfe => hef ⟨hfe.2, hfe.1⟩
  have lineU : ∀ e ∈ there ++ back, ∀ f ∈ there ++ back, Up h e → Up h f →
      ∃ k l : K, e.1.x = k * e.1.y + l ∧ e.2.x = k * e.2.y + l ∧ f.1.x = k * f.1.y + l ∧ f.2.x = k * f.2.y + l :=
    fun e he f hf ue uf => same_line ue uf (pairs_side ho (hmem e he) (hmem f hf))
  have lineD : ∀ e ∈ there ++ back, ∀ f ∈ there ++ back, Dn h e → Dn h f →
      ∃ k l : K, e.2.x = k * e.2.y + l ∧ e.1.x = k * e.1.y + l ∧ f.2.x = k * f.2.y + l ∧ f.1.x = k * f.1.y + l := by
    intro e he f hf ue uf
    refine same_line ue uf ?_
    rw [side_flip e.1, side_flip e.1, side_flip f.1, side_flip f.1]
    rcases pairs_side ho (hmem e he) (hmem f hf) with ⟨h1, h2, h3, h4⟩ | ⟨h1, h2, h3, h4⟩
    · right; refine ⟨?_, ?_, ?_, ?_⟩ <;> linarith
    · left; refine ⟨?_, ?_, ?_, ?_⟩ <;> linarith
  constructor
  · rw [hr.perm.pairwise_iff (fun {a b} h => symU h), List.pairwise_append]
    refine ⟨?_, ?_, ?_⟩
    · refine p1.imp_of_mem ?_
      rintro e f he hf hef ⟨ue, uf⟩
      obtain ⟨k, l, h1, h2, h3, h4⟩ := lineU e (by simp [he]) f (by simp [hf]) ue uf
      have hy : e.1.y < e.2.y := ue.1.trans_le ue.2
      have hy2 : f.1.y < e.2.y := uf.1.trans_le ue.2
      have hk : 0 ≤ k := by
        have : e.1.x ≤ e.2.x := by rcases ht e he with h | h; exacts [h.le, h.1.le]
        by_contra hk
        nlinarith [mul_pos (neg_pos.mpr (not_le.mp hk)) (sub_pos.mpr hy)]
      rcases hef with h | ⟨h, h'⟩
      · nlinarith [mul_nonneg hk (sub_pos.mpr hy2).le]
      · exact absurd h' (not_le.mpr hy2)
    · refine p2.imp_of_mem ?_
      rintro e f he hf hef ⟨ue, uf⟩
      obtain ⟨k, l, h1, h2, h3, h4⟩ := lineU e (by simp [he]) f (by simp [hf]) ue uf
      have hy : e.1.y < e.2.y := ue.1.trans_le ue.2
      have hy2 : f.1.y < e.2.y := uf.1.trans_le ue.2
      have hx : e.2.x < e.1.x := by rcases hb e he with h | h; exacts [h, absurd h.2 (not_le.mpr hy)]
      have hk : k < 0 := by
        by_contra hk
        nlinarith [mul_nonneg (not_lt.mp hk) (sub_pos.mpr hy).le]
      have : e.2.x < f.1.x := by nlinarith [mul_pos (neg_pos.mpr hk) (sub_pos.mpr hy2)]
      rcases hef with h | ⟨h, h'⟩ <;> linarith
    · rintro e he f hf ⟨ue, uf⟩
      obtain ⟨k, l, h1, h2, h3, h4⟩ := lineU e (by simp [he]) f (by simp [hf]) ue uf
      have hy : e.1.y < e.2.y := ue.1.trans_le ue.2
      have hyf : f.1.y < f.2.y := uf.1.trans_le uf.2
      have hx : f.2.x < f.1.x := by rcases hb f hf with h | h; exacts [h, absurd h.2 (not_le.mpr hyf)]
      have hxe : e.1.x ≤ e.2.x := by rcases ht e he with h | h; exacts [h.le, h.1.le]
      rcases le_total 0 k with hk | hk
      · nlinarith [mul_nonneg hk (sub_pos.mpr hyf).le]
      · rcases lt_or_eq_of_le hk with hk | hk
        · nlinarith [mul_pos (neg_pos.mpr hk) (sub_pos.mpr hy)]
        · subst hk; linarith
  · rw [hr.perm.pairwise_iff (fun {a b} h => symD h), List.pairwise_append]
    refine ⟨?_, ?_, ?_⟩
    · refine p1.imp_of_mem ?_
      rintro e f he hf hef ⟨ue, uf⟩
      obtain ⟨k, l, h1, h2, h3, h4⟩ := lineD e (by simp [he]) f (by simp [hf]) ue uf
      have hy : e.2.y < e.1.y := ue.1.trans_le ue.2
      have hy2 : e.2.y < f.1.y := ue.1.trans_le uf.2
      have hx : e.1.x < e.2.x := by rcases ht e he with h | h; exacts [h, absurd h.2 (not_le.mpr hy)]
      have hk : k < 0 := by
        by_contra hk
        nlinarith [mul_nonneg (not_lt.mp hk) (sub_pos.mpr hy).le]
      have : f.1.x < e.2.x := by nlinarith [mul_pos (neg_pos.mpr hk) (sub_pos.mpr hy2)]
      rcases hef with h | ⟨h, h'⟩ <;> linarith
    · refine p2.imp_of_mem ?_
      rintro e f he hf hef ⟨ue, uf⟩
      obtain ⟨k, l, h1, h2, h3, h4⟩ := lineD e (by simp [he]) f (by simp [hf]) ue uf
      have hy : e.2.y < e.1.y := ue.1.trans_le ue.2
      have hy2 : e.2.y < f.1.y := ue.1.trans_le uf.2
      have hk : 0 ≤ k := by
        have : e.2.x ≤ e.1.x := by rcases hb e he with h | h; exacts [h.le, h.1.le]
        by_contra hk
        nlinarith [mul_pos (neg_pos.mpr (not_le.mp hk)) (sub_pos.mpr hy)]
      rcases hef with h | ⟨h, h'⟩
      · nlinarith [mul_nonneg hk (sub_pos.mpr hy2).le]
      · exact absurd h' (not_le.mpr hy2)
    · rintro e he f hf ⟨ue, uf⟩
      obtain ⟨k, l, h1, h2, h3, h4⟩ := lineD e (by simp [he]) f (by simp [hf]) ue uf
      have hy : e.2.y < e.1.y := ue.1.trans_le ue.2
      have hyf : f.2.y < f.1.y := uf.1.trans_le uf.2
      have hx : e.1.x < e.2.x := by rcases ht e he with h | h; exacts [h, absurd h.2 (not_le.mpr hy)]
      have hxf : f.2.x ≤ f.1.x := by rcases hb f hf with h | h; exacts [h.le, h.1.le]
      rcases le_total 0 k with hk | hk
      · nlinarith [mul_nonneg hk (sub_pos.mpr hy).le]
      · rcases lt_or_eq_of_le hk with hk | hk
        · nlinarith [mul_pos (neg_pos.mpr hk) (sub_pos.mpr hyf)]
        · subst hk; linarith

end Polygon
end Planar
