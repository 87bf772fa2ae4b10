import Verif.Lemmas.ClearSim
import Verif.Props.PolyEq
/- Orientation tests of clear points and corners in double precision. -/
set_option linter.unusedSectionVars false
namespace Planar
open Spec Polygon

/-- At most `2 ^ 510`. -/
def Mod (a : Double) : Prop := |a.val| ≤ 2 ^ 510

theorem mod_sub {a b : Double} (ha : Mod a) (hb : Mod b) : |a.val - b.val| ≤ 2 ^ 511 := by
  unfold Mod at ha hb
  have : (2 : ℚ) ^ 511 = 2 ^ 510 + 2 ^ 510 := by rw [pow_succ]; ring
  rw [this]
  exact (abs_sub _ _).trans (add_le_add ha hb)

theorem mod_sub_err {a b : Double} (ha : Mod a) (hb : Mod b) :
    |(a - b).val - (a.val - b.val)| ≤ uRel * |a.val - b.val| :=
  double_sub_err a b ((mod_sub ha hb).trans (pow_le_pow_right₀ (by norm_num) (by norm_num)))

theorem mod_prod {x y : ℚ} (hx : |x| ≤ 2 ^ 511) (hy : |y| ≤ 2 ^ 511) : |x| * |y| ≤ 2 ^ 1022 := by
  have : (2 : ℚ) ^ 1022 = 2 ^ 511 * 2 ^ 511 := by rw [← pow_add]
  rw [this]
  exact mul_le_mul hx hy (abs_nonneg _) (by positivity)

/-- The computed product of zero is zero. -/
theorem zero_prod {a b : Double} {x y : ℚ} (ha : SameSign a x) (hb : SameSign b y) (h : x * y = 0) : (a * b).val = 0 := by
  rw [Fl.mul_val]
  have : a.val * b.val = 0 := by
    rcases mul_eq_zero.mp h with h | h
    · rw [ha.zero.mpr h, zero_mul]
    · rw [hb.zero.mpr h, mul_zero]
  rw [this, double.zero]

/-- A difference of products of differences of coordinates. -/
theorem clear_sign {a a' b b' c c' d d' : Double} (ha : Mod a) (ha' : Mod a') (hb : Mod b) (hb' : Mod b') (hc : Mod c)
    (hc' : Mod c') (hd : Mod d) (hd' : Mod d') {x y z w : ℚ} (hx : x = a.val - a'.val) (hy : y = b.val - b'.val)
    (hz : z = c.val - c'.val) (hw : w = d.val - d'.val)
    (h : 1 / 2 ^ 51 * (|x * y| + |z * w|) + 1 / 2 ^ 1074 < |x * y - z * w| ∨ (x * y = 0 ∧ z * w = 0)) :
    SameSign ((a - a') * (b - b') - (c - c') * (d - d')) (x * y - z * w) := by
  subst hx hy hz hw
  rcases h with h | ⟨h1, h2⟩
  · exact double_cross_sign (mod_sub_err ha ha') (mod_sub_err hb hb') (mod_sub_err hc hc') (mod_sub_err hd hd')
      (mod_prod (mod_sub ha ha') (mod_sub hb hb')) (mod_prod (mod_sub hc hc') (mod_sub hd hd')) h
  · have e1 := zero_prod (sameSign_sub a a') (sameSign_sub b b') h1
    have e2 := zero_prod (sameSign_sub c c') (sameSign_sub d d') h2
    unfold SameSign
    rw [h1, h2, Fl.sub_val, e1, e2, sub_self, double.zero]

/-- A vertex or point with coordinates at most `2 ^ 510`. -/
def ModV (v : Vec2 Double) : Prop := Mod v.x ∧ Mod v.y

theorem turn_of_clear {p v0 v1 : Vec2 Double} (hp : ModV p) (h0 : ModV v0) (h1 : ModV v1)
    (h : ClearCross ⟨v1.exact.x - v0.exact.x, v1.exact.y - v0.exact.y⟩ ⟨p.exact.x - v0.exact.x, p.exact.y - v0.exact.y⟩) :
    TurnOk p v0 v1 := by
  unfold ClearCross at h
  simp only at h
  rw [mul_comm (v1.exact.y - v0.exact.y)] at h
  exact clear_sign h1.1 h0.1 hp.2 h0.2 hp.1 h0.1 h1.2 h0.2 rfl rfl rfl rfl h

theorem turn_self_left (v0 v1 : Vec2 Double) : TurnOk v0 v0 v1 := by
  have e : ∀ a : Double, (a - a).val = 0 := fun a => by rw [Fl.sub_val, sub_self, double.zero]
  unfold TurnOk SameSign
  simp only [sub_self, mul_zero, zero_mul]
  rw [Fl.sub_val, Fl.mul_val, Fl.mul_val, e, e]
  simp [double.zero]

theorem turn_self_right (v0 v1 : Vec2 Double) : TurnOk v1 v0 v1 := by
  unfold TurnOk SameSign
  rw [Fl.sub_val, sub_self, sub_self, double.zero]

theorem far_cross {a b p : Vec2 ℚ} (hs : Spans (a, b) p) (h : FarFrom (a, b) p) :
    ClearCross ⟨b.x - a.x, b.y - a.y⟩ ⟨p.x - a.x, p.y - a.y⟩ := by
  have hne : b.y - a.y ≠ 0 := by
    rcases hs with ⟨h1, h2⟩ | ⟨h1, h2⟩ <;> simp only at h1 h2
    · have := lt_of_lt_of_le h1 h2; exact (sub_pos.mpr this).ne'
    · have := lt_of_lt_of_le h1 h2; exact (sub_neg.mpr this).ne
  have hH : 0 < |b.y - a.y| := abs_pos.mpr hne
  have hle : |p.y - a.y| ≤ |b.y - a.y| := by
    rcases hs with ⟨h1, h2⟩ | ⟨h1, h2⟩ <;> simp only at h1 h2
    · rw [abs_of_nonneg (by linarith), abs_of_nonneg (by linarith)]; linarith
    · rw [abs_of_nonpos (by linarith), abs_of_nonpos (by linarith)]; linarith
  have hid : (b.x - a.x) * (p.y - a.y) - (b.y - a.y) * (p.x - a.x) = -((b.y - a.y) * (p.x - crossX a b p.y)) := by
    unfold crossX
    field_simp
    ring
  left
  simp only
  rw [hid, abs_neg, abs_mul, abs_mul, abs_mul]
  unfold FarFrom at h
  simp only at h
  generalize hk : (1 : ℚ) / 2 ^ 51 = k at h ⊢
  generalize hj : (1 : ℚ) / 2 ^ 1074 = j at h ⊢
  have hk0 : 0 ≤ k := by rw [← hk]; positivity
  have h' := mul_lt_mul_of_pos_left h hH
  have e : |b.y - a.y| * (j / |b.y - a.y|) = j := by field_simp
  have m := le_max_left |p.x - a.x| |p.x - b.x|
  rw [mul_add, e] at h'
  refine lt_of_le_of_lt ?_ h'
  have h1 : |b.x - a.x| * |p.y - a.y| ≤ |b.x - a.x| * |b.y - a.y| := mul_le_mul_of_nonneg_left hle (abs_nonneg _)
  have h2 : |b.y - a.y| * |p.x - a.x| ≤ |b.y - a.y| * max |p.x - a.x| |p.x - b.x| := mul_le_mul_of_nonneg_left m hH.le
  have h3 := mul_le_mul_of_nonneg_left (add_le_add h1 h2) hk0
  linarith

theorem far_symm {a b p : Vec2 ℚ} (hs : Spans (a, b) p) (h : FarFrom (a, b) p) : FarFrom (b, a) p := by
  have hne : b.y - a.y ≠ 0 := by
    rcases hs with ⟨h1, h2⟩ | ⟨h1, h2⟩ <;> simp only at h1 h2
    · have := lt_of_lt_of_le h1 h2; exact (sub_pos.mpr this).ne'
    · have := lt_of_lt_of_le h1 h2; exact (sub_neg.mpr this).ne
  have hne' : a.y - b.y ≠ 0 := fun h0 => hne (by linarith)
  have hx : crossX b a p.y = crossX a b p.y := by
    have e : (p.y - b.y) / (a.y - b.y) = 1 - (p.y - a.y) / (b.y - a.y) := by
      rw [eq_sub_iff_add_eq, ← neg_sub b.y a.y, div_neg, neg_add_eq_sub, div_sub_div_same, div_eq_one_iff_eq hne]
      ring
    unfold crossX
    rw [e]; ring
  unfold FarFrom at h ⊢
  simp only at h ⊢
  rw [hx, abs_sub_comm a.x, abs_sub_comm a.y, max_comm]
  exact h

theorem edgeOk_of_clear {vs : List (Vec2 Double)} (hm : ∀ v ∈ vs, ModV v) {p : Vec2 Double} (hp : ModV p)
    (h : ClearPoint (vs.map Vec2.exact) p.exact) : ∀ e ∈ edges vs, EdgeOk p e.1 e.2 := by
  intro e he hs
  have he' : (e.1.exact, e.2.exact) ∈ edges (vs.map Vec2.exact) := by
    rw [edges_map_exact]; exact List.mem_map.mpr ⟨e, he, rfl⟩
  have hs' : Spans (e.1.exact, e.2.exact) p.exact := hs
  have hf := h _ he' hs'
  have hmem := edges_mem (vs := vs) he
  exact ⟨turn_of_clear hp (hm _ hmem.1) (hm _ hmem.2) (far_cross hs' hf),
    turn_of_clear hp (hm _ hmem.2) (hm _ hmem.1) (far_cross hs'.symm (far_symm hs' hf))⟩

theorem turns_of_clear {vs : List (Vec2 Double)} (hm : ∀ v ∈ vs, ModV v) (h : ClearSides (vs.map Vec2.exact)) :
    ∀ e ∈ edges vs, ∀ v ∈ vs, TurnOk v e.1 e.2 ∧ TurnOk v e.2 e.1 := by
  intro e he v hv
  have he' : (e.1.exact, e.2.exact) ∈ edges (vs.map Vec2.exact) := by
    rw [edges_map_exact]; exact List.mem_map.mpr ⟨e, he, rfl⟩
  have inj : ∀ a b : Vec2 Double, a.exact = b.exact → a = b := by
    intro a b hab
    have h1 := congrArg Vec2.x hab
    have h2 := congrArg Vec2.y hab
    exact Vec2.ext (Fl.ext h1) (Fl.ext h2)
  have hmem := edges_mem (vs := vs) he
  by_cases h1 : v = e.1
  · rw [h1]; exact ⟨turn_self_left _ _, turn_self_right _ _⟩
  by_cases h2 : v = e.2
  · rw [h2]; exact ⟨turn_self_right _ _, turn_self_left _ _⟩
  have := h _ he' v.exact (List.mem_map.mpr ⟨v, hv, rfl⟩) (fun hh => h1 (inj _ _ hh)) (fun hh => h2 (inj _ _ hh))
  exact ⟨turn_of_clear (hm v hv) (hm _ hmem.1) (hm _ hmem.2) this.1, turn_of_clear (hm v hv) (hm _ hmem.2) (hm _ hmem.1) this.2⟩

theorem exact_inj_vec {a b : Vec2 Double} (hab : a.exact = b.exact) : a = b :=
  Vec2.ext (Fl.ext (congrArg Vec2.x hab)) (Fl.ext (congrArg Vec2.y hab))

theorem sight_of_clear {vs : List (Vec2 Double)} (hm : ∀ v ∈ vs, ModV v) {p : Vec2 Double} (hp : ModV p)
    (h : ClearSight (vs.map Vec2.exact) p.exact) : SightOk vs p := by
  obtain ⟨he, hv⟩ := h
  refine ⟨fun e hmem => ?_, fun a ha b hb => ?_⟩
  · have he' : (e.1.exact, e.2.exact) ∈ edges (vs.map Vec2.exact) := by
      rw [edges_map_exact]; exact List.mem_map.mpr ⟨e, hmem, rfl⟩
    have hc := he _ he'
    have hs := edges_mem hmem
    exact turn_of_clear hp (hm _ hs.1) (hm _ hs.2) hc
  · by_cases hab : a = b
    · rw [hab]; exact turn_self_right _ _
    · have hc := hv a.exact (List.mem_map.mpr ⟨a, ha, rfl⟩) b.exact (List.mem_map.mpr ⟨b, hb, rfl⟩) fun h => hab (exact_inj_vec h)
      exact turn_of_clear (hm _ hb) hp (hm _ ha) hc

theorem crossOk_range {D : Int → Vec2 Double} {E : Int → Vec2 ℚ} : ∀ (n : Nat) (k : Int),
    (∀ i : Int, k ≤ i → i < k + n → SignVec (D i) (E i) ∧ SameSign ((D (i - 1)).cross (D i)) ((E (i - 1)).cross (E i))) →
    CrossOk ((List.range n).map fun (i : Nat) => D (k + i)) ((List.range n).map fun (i : Nat) => E (k + i)) (D (k - 1)) (E (k - 1)) := by
  intro n
  induction n with
  | zero => intro k _; exact trivial
  | succ n ih =>
    intro k h
    rw [List.range_succ_eq_map, List.map_cons, List.map_cons, List.map_map, List.map_map]
    have h0 := h k le_rfl (by push_cast; omega)
    have := ih (k + 1) fun i h1 h2 => h i (by omega) (by push_cast; omega)
    rw [add_sub_cancel_right] at this
    have e : ∀ {α : Type} (f : Int → α), (fun (i : Nat) => f (k + i)) ∘ Nat.succ = fun (i : Nat) => f (k + 1 + i) := by
      intro α f; funext i; simp only [Function.comp]; congr 1; push_cast; ring
    have z : k + ((0 : Nat) : Int) = k := by simp
    simp only [z, e]
    exact ⟨h0.1, h0.2, this⟩

theorem clear_classifyRun {vs : List (Vec2 Double)} (hm : ∀ v ∈ vs, ModV v) (h2 : 2 ≤ vs.length)
    (hd : ∀ e ∈ edges vs, e.1 ≠ e.2) (h : ClearCorners (vs.map Vec2.exact)) :
    Polygon.classifyRun (vs.map Vec2.exact) = Polygon.classifyRun vs := by
  set D : Int → Vec2 Double := fun i => nth vs i - nth vs (i - 1) with hD
  set E : Int → Vec2 ℚ := fun i => nth (vs.map Vec2.exact) i - nth (vs.map Vec2.exact) (i - 1) with hE
  have hv : edgeVectors vs = (List.range vs.length).map fun (i : Nat) => D (0 + i) := by
    unfold edgeVectors; apply List.map_congr_left; intro i _; rw [hD]; simp
  have hv' : edgeVectors (vs.map Vec2.exact) = (List.range vs.length).map fun (i : Nat) => E (0 + i) := by
    unfold edgeVectors; rw [List.length_map]; apply List.map_congr_left; intro i _; rw [hE]; simp
  have hsign : ∀ i, SignVec (D i) (E i) := by
    intro i; rw [hD, hE]; simp only [nth_exact]; exact signVec_sub _ _
  have htr : ∀ d ∈ edgeVectors vs, d.truthy = true := by
    intro d hd'
    unfold edgeVectors at hd'
    obtain ⟨i, hi, rfl⟩ := List.mem_map.mp hd'
    have he : (nth vs ((i : Int) - 1), nth vs i) ∈ edges vs := by
      rw [← range_map_edges]; exact List.mem_map.mpr ⟨i, hi, rfl⟩
    have hne := hd _ he
    simp only at hne
    have hs := signVec_sub (nth vs ((i : Int) - 1)) (nth vs (i : Int))
    rw [← hs.truthy]
    unfold Vec2.truthy
    by_contra hc
    simp only [Bool.or_eq_true, bne_iff_ne, ne_eq, not_or, not_not] at hc
    refine hne (Vec2.ext (Fl.ext ?_) (Fl.ext ?_))
    · exact (sub_eq_zero.mp hc.1).symm
    · exact (sub_eq_zero.mp hc.2).symm
  have htr' : ∀ d ∈ edgeVectors (vs.map Vec2.exact), d.truthy = true := by
    intro d hd'
    rw [hv'] at hd'
    obtain ⟨i, hi, rfl⟩ := List.mem_map.mp hd'
    rw [(hsign _).truthy]
    exact htr _ (by rw [hv]; exact List.mem_map.mpr ⟨i, hi, rfl⟩)
  have hc : CrossOk (edgeVectors vs) (edgeVectors (vs.map Vec2.exact)) (D (0 - 1)) (E (0 - 1)) := by
    rw [hv, hv']
    apply crossOk_range
    intro i h0 h1
    refine ⟨hsign i, ?_⟩
    obtain ⟨j, rfl⟩ : ∃ j : Nat, i = j := ⟨i.toNat, by omega⟩
    have hj : j < vs.length := by omega
    have ht : (nth (vs.map Vec2.exact) ((j : Int) - 2), nth (vs.map Vec2.exact) ((j : Int) - 1), nth (vs.map Vec2.exact) (j : Int)) ∈
        corners (vs.map Vec2.exact) := by
      refine (tris_corners (vs.map Vec2.exact) (by simpa using h2)).subset ?_
      unfold tris
      exact List.mem_map.mpr ⟨j, by simpa using hj, rfl⟩
    have hcl := h _ ht
    have mod : ∀ i : Int, ModV (nth vs i) := by
      intro i
      unfold nth pyGet
      cases hp : pyIndex vs.length i with
      | none =>
        refine ⟨?_, ?_⟩ <;> (unfold Mod; change |(0 : ℚ)| ≤ _; rw [abs_zero]; positivity)
      | some k =>
        have hk : k < vs.length := by unfold pyIndex at hp; split_ifs at hp <;> cases hp <;> omega
        simp only [List.getElem?_eq_getElem hk]
        exact hm _ (List.getElem_mem hk)
    have e2 : (j : Int) - 1 - 1 = (j : Int) - 2 := by ring
    simp only [hD, hE, e2]
    simp only [nth_exact] at hcl ⊢
    unfold ClearCross at hcl
    exact clear_sign (mod _).1 (mod _).1 (mod _).2 (mod _).2 (mod _).2 (mod _).2 (mod _).1 (mod _).1 rfl rfl rfl rfl hcl
  unfold Polygon.classifyRun
  simp only
  rw [List.filter_eq_self.mpr htr, List.filter_eq_self.mpr htr']
  have e1 : nth vs (-1) - nth vs (-2) = D (0 - 1) := rfl
  have e2 : nth (vs.map Vec2.exact) (-1) - nth (vs.map Vec2.exact) (-2) = E (0 - 1) := rfl
  rw [e1, e2, (hsign _).lexDir]
  exact ok_classifyLoop _ _ _ _ _ _ _ _ hc

end Planar
