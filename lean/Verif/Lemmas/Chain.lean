import Verif.Lemmas.Convex
import Verif.Props.Winding
/- The two chains of a convex polygon and the test for them. -/
set_option linter.unusedSectionVars false
namespace Planar
open Spec
namespace Polygon
variable {K : Type} [Field K] [LinearOrder K] [IsStrictOrderedRing K]

theorem ptLt_iff (py : K) (yx : K × K) : ptLt py yx = true ↔ py ≤ yx.1 := by
  unfold ptLt
  by_cases h : py = yx.1
  · simp [h]
  · simp only [beq_iff_eq, h, if_false, decide_eq_true_eq]
    exact ⟨le_of_lt, fun h' => lt_of_le_of_ne h' h⟩

theorem bisectLoop_spec (pl : List (K × K)) (py : K) (lo hi : Nat) (h1 : lo ≤ hi) (h2 : hi ≤ pl.length)
    (hlo : ∀ i e, lo = i + 1 → pl[i]? = some e → e.1 < py) (hhi : ∀ e, pl[hi]? = some e → py ≤ e.1) :
    let r := bisectLoop pl py lo hi
    r ≤ pl.length ∧ (∀ i e, r = i + 1 → pl[i]? = some e → e.1 < py) ∧ (∀ e, pl[r]? = some e → py ≤ e.1) := by
  induction hn : hi - lo using Nat.strong_induction_on generalizing lo hi with
  | _ n ih =>
    unfold bisectLoop
    by_cases h : lo < hi
    · simp only [h, dite_true]
      have hm : (lo + hi) / 2 < pl.length := by omega
      rw [List.getElem?_eq_getElem hm]
      simp only
      split <;> rename_i hp
      · rw [ptLt_iff] at hp
        refine ih ((lo + hi) / 2 - lo) (by omega) lo ((lo + hi) / 2) (by omega) (by omega) hlo ?_ rfl
        intro e he
        rw [List.getElem?_eq_getElem hm] at he
        injection he with he
        rw [← he]; exact hp
      · rw [ptLt_iff, not_le] at hp
        refine ih (hi - ((lo + hi) / 2 + 1)) (by omega) ((lo + hi) / 2 + 1) hi (by omega) h2 ?_ hhi rfl
        intro i e hi' he
        have : i = (lo + hi) / 2 := by omega
        subst this
        rw [List.getElem?_eq_getElem hm] at he
        injection he with he
        rw [← he]; exact hp
    · simp only [h, dite_false]
      have : lo = hi := by omega
      subst this
      exact ⟨h2, hlo, hhi⟩

/-- The position found by the bisection, for any list. -/
theorem bisect_spec (pl : List (K × K)) (py : K) :
    bisectRight pl py ≤ pl.length ∧ (∀ i e, bisectRight pl py = i + 1 → pl[i]? = some e → e.1 < py) ∧
      (∀ e, pl[bisectRight pl py]? = some e → py ≤ e.1) :=
  bisectLoop_spec pl py 0 pl.length (by omega) le_rfl (by intro i e h; omega) (by intro e h; simp at h)

/-- A polyline given as a list of points; the entries of the stored polylines are (y, x). -/
def yx (v : Vec2 K) : K × K := (v.y, v.x)

/-- The bisection in a polyline from a lowest to a highest point. -/
theorem bisect_chain {c : List (Vec2 K)} {m M : Vec2 K} (h0 : c.head? = some m) (h1 : c.getLast? = some M)
    (hlo : ∀ v ∈ c, m.y ≤ v.y) (hhi : ∀ v ∈ c, v.y ≤ M.y) (py : K) :
    (py ≤ m.y → bisectRight (c.map yx) py = 0) ∧ (M.y < py → bisectRight (c.map yx) py = c.length) ∧
    (m.y < py → py ≤ M.y → ∃ i a b, bisectRight (c.map yx) py = i + 1 ∧ c[i]? = some a ∧ c[i + 1]? = some b ∧
      a.y < py ∧ py ≤ b.y) := by
  obtain ⟨s1, s2, s3⟩ := bisect_spec (c.map yx) py
  simp only [List.length_map, List.getElem?_map, Option.map_eq_some_iff, forall_exists_index, and_imp, forall_apply_eq_imp_iff₂] at s1 s2 s3
  generalize bisectRight (c.map yx) py = r at *
  have hc : 0 < c.length := by cases c with | nil => simp at h0 | cons => simp
  have hm : c[0]? = some m := by rw [← h0, List.head?_eq_getElem?]
  have hM : c[c.length - 1]? = some M := by rw [← h1, List.getLast?_eq_getElem?]
  refine ⟨?_, ?_, ?_⟩
  · intro hp
    by_contra hr
    have := s2 (r - 1) (yx (c[r - 1]'(by omega))) (by omega) (c[r - 1]'(by omega)) (List.getElem?_eq_getElem (by omega)) rfl
    have h3 := hlo (c[r - 1]'(by omega)) (List.getElem_mem _)
    simp only [yx] at this
    linarith
  · intro hp
    by_contra hr
    have hr' : r < c.length := by omega
    have := s3 (c[r]) (List.getElem?_eq_getElem hr')
    have h3 := hhi (c[r]) (List.getElem_mem _)
    simp only [yx] at this
    linarith
  · intro hp1 hp2
    have hr0 : r ≠ 0 := by
      rintro rfl
      have := s3 m hm
      simp only [yx] at this
      linarith
    have hrl : r ≠ c.length := by
      rintro rfl
      have := s2 (c.length - 1) _ (by omega) M hM rfl
      simp only [yx] at this
      linarith
    refine ⟨r - 1, c[r - 1]'(by omega), c[r]'(by omega), by omega, List.getElem?_eq_getElem _, ?_, ?_, ?_⟩
    · rw [show r - 1 + 1 = r by omega]; exact List.getElem?_eq_getElem _
    · exact s2 (r - 1) _ (by omega) _ (List.getElem?_eq_getElem (by omega)) rfl
    · exact s3 _ (List.getElem?_eq_getElem (by omega))

/-- Two consecutive points of a polyline. -/
def Adj (c : List (Vec2 K)) (a b : Vec2 K) : Prop := ∃ i, c[i]? = some a ∧ c[i + 1]? = some b

theorem adj_edge {v : Vec2 K} {c : List (Vec2 K)} {a b : Vec2 K} (h : Adj (v :: c) a b) : (a, b) ∈ edgesFrom v c := by
  obtain ⟨i, h1, h2⟩ := h
  obtain ⟨h1', h1⟩ := List.getElem?_eq_some_iff.mp h1
  obtain ⟨h2', h2⟩ := List.getElem?_eq_some_iff.mp h2
  have hl : i < (edgesFrom v c).length := by rw [edgesFrom_length]; simpa using h2'
  have := edgesFrom_getElem v c i hl
  rw [h1] at this
  simp only [List.getElem_cons_succ] at h2
  rw [h2] at this
  rw [← this]; exact List.getElem_mem _

theorem adj_reverse {c : List (Vec2 K)} {a b : Vec2 K} (h : Adj c.reverse a b) : Adj c b a := by
  obtain ⟨i, h1, h2⟩ := h
  have hi2 : i + 1 < c.length := by
    have := (List.getElem?_eq_some_iff.mp h2).1; simpa using this
  rw [List.getElem?_reverse (by omega)] at h1
  rw [List.getElem?_reverse (by omega)] at h2
  exact ⟨c.length - 1 - (i + 1), h2, by rw [← h1]; congr 1; omega⟩

/-- The test of a point against a left and a right polyline, both from a lowest to a highest point: it never raises; it
is False outside the range of heights, else the point is compared with one edge of each polyline. -/
theorem ymono_spec {l r : List (Vec2 K)} {ml Ml mr Mr : Vec2 K} (hl0 : l.head? = some ml) (hl1 : l.getLast? = some Ml)
    (hr0 : r.head? = some mr) (hr1 : r.getLast? = some Mr) (hm : mr.y = ml.y) (hM : Mr.y = Ml.y)
    (hlo : ∀ v ∈ l ++ r, ml.y ≤ v.y) (hhi : ∀ v ∈ l ++ r, v.y ≤ Ml.y) (p : Vec2 K) :
    (¬ (ml.y < p.y ∧ p.y ≤ Ml.y) → pnpYMonotone (l.map yx, r.map yx) p = .ok false) ∧
    (ml.y < p.y → p.y ≤ Ml.y → ∃ a b c d, Adj l a b ∧ a.y < p.y ∧ p.y ≤ b.y ∧ Adj r c d ∧ c.y < p.y ∧ p.y ≤ d.y ∧
      pnpYMonotone (l.map yx, r.map yx) p = .ok (decide (crossX a b p.y ≤ p.x) && decide (p.x < crossX c d p.y))) := by
  obtain ⟨b1, b2, b3⟩ := bisect_chain hl0 hl1 (fun v hv => hlo v (by simp [hv])) (fun v hv => hhi v (by simp [hv])) p.y
  constructor
  · intro h
    unfold pnpYMonotone
    simp only [List.length_map]
    by_cases h1 : ml.y < p.y
    · have : ¬ p.y ≤ Ml.y := fun h2 => h ⟨h1, h2⟩
      rw [b2 (not_le.mp this)]; simp
    · rw [b1 (not_lt.mp h1)]; simp
  · intro h1 h2
    obtain ⟨i, a, b, hi, ha, hb, hap, hbp⟩ := b3 h1 h2
    obtain ⟨-, -, c3⟩ := bisect_chain hr0 hr1 (fun v hv => by rw [hm]; exact hlo v (by simp [hv]))
      (fun v hv => by rw [hM]; exact hhi v (by simp [hv])) p.y
    obtain ⟨j, c, d, hj, hc, hd, hcp, hdp⟩ := c3 (by rw [hm]; exact h1) (by rw [hM]; exact h2)
    refine ⟨a, b, c, d, ⟨i, ha, hb⟩, hap, hbp, ⟨j, hc, hd⟩, hcp, hdp, ?_⟩
    have get : ∀ (q : List (Vec2 K)) (k : Nat) (v : Vec2 K), q[k]? = some v → pyGet (q.map yx) (k : Int) = .ok (yx v) := by
      intro q k v hq
      obtain ⟨hk, hv⟩ := List.getElem?_eq_some_iff.mp hq
      have h2 : pyIndex (q.map yx).length (k : Int) = some k := by simp [pyIndex, hk]
      simp only [pyGet, h2, List.getElem?_map, hq, Option.map_some]
    have hil : i + 1 < l.length := (List.getElem?_eq_some_iff.mp hb).1
    unfold pnpYMonotone
    simp only [List.length_map, hi, hj]
    rw [if_neg (by simp; omega)]
    have e1 : (((i + 1 : Nat) : Int) - 1) = (i : Int) := by push_cast; ring
    have e2 : (((j + 1 : Nat) : Int) - 1) = (j : Int) := by push_cast; ring
    rw [e1, e2]
    simp only [get _ _ _ ha, get _ _ _ hb, get _ _ _ hc, get _ _ _ hd, bind, Except.bind, pure, Except.pure, yx]
    have k1 := crossX_le_up (p := p) (hap.trans_le hbp)
    have k2 := crossX_le_up (p := p) (hcp.trans_le hdp)
    by_cases q1 : crossX a b p.y ≤ p.x
    · have q1' : ¬ (b.x - a.x) * (p.y - a.y) - (p.x - a.x) * (b.y - a.y) > 0 := not_lt.mpr (k1.mpr q1)
      simp only [q1', if_false, q1, decide_true, Bool.true_and]
      congr 1
      rw [decide_eq_decide, gt_iff_lt, ← not_le, ← not_le, k2]
    · have q1' : (b.x - a.x) * (p.y - a.y) - (p.x - a.x) * (b.y - a.y) > 0 := not_le.mp (fun hc => q1 (k1.mp hc))
      simp only [q1', if_true, q1, decide_false, Bool.false_and]

/-! ### Straddling edges -/

/-- The edge crosses the height `h` upwards. -/
def Up (h : K) (e : Vec2 K × Vec2 K) : Prop := e.1.y < h ∧ h ≤ e.2.y

/-- The edge crosses the height `h` downwards. -/
def Dn (h : K) (e : Vec2 K × Vec2 K) : Prop := e.2.y < h ∧ h ≤ e.1.y

theorem crossX_swap {a b : Vec2 K} (h : K) (hne : a.y ≠ b.y) : crossX a b h = crossX b a h := by
  unfold crossX
  have h1 : b.y - a.y ≠ 0 := sub_ne_zero.mpr (Ne.symm hne)
  have h2 : a.y - b.y ≠ 0 := sub_ne_zero.mpr hne
  field_simp
  ring

/-- Linear functions of the height. -/
theorem lin_zero {k l a b c d h : K} (h1 : 0 ≤ k * c + l) (h2 : 0 ≤ k * d + l) (h3 : k * a + l ≤ 0) (h4 : k * b + l ≤ 0)
    (ha : a < h) (hb : h ≤ b) (hc : c < h) (hd : h ≤ d) : k = 0 ∧ l = 0 := by
  have hk : k = 0 := by
    rcases lt_trichotomy k 0 with hk | hk | hk
    · exfalso
      -- decreasing: positive at d, negative at a, a < d
      have : k * d < k * a := mul_lt_mul_of_neg_left (ha.trans_le hd) hk
      linarith
    · exact hk
    · exfalso
      have : k * c < k * b := mul_lt_mul_of_pos_left (hc.trans_le hb) hk
      linarith
  subst hk
  exact ⟨rfl, by linarith⟩

/-- Two edges across the same height with each other's ends on the same side lie on one line. -/
theorem same_line {a b c d : Vec2 K} {h : K} (hab : a.y < h ∧ h ≤ b.y) (hcd : c.y < h ∧ h ≤ d.y)
    (hs : (0 ≤ side a b c ∧ 0 ≤ side a b d ∧ 0 ≤ side c d a ∧ 0 ≤ side c d b) ∨
      (side a b c ≤ 0 ∧ side a b d ≤ 0 ∧ side c d a ≤ 0 ∧ side c d b ≤ 0)) :
    ∃ k l : K, a.x = k * a.y + l ∧ b.x = k * b.y + l ∧ c.x = k * c.y + l ∧ d.x = k * d.y + l := by
  have hu : 0 < b.y - a.y := by linarith [hab.1, hab.2]
  have hw : 0 < d.y - c.y := by linarith [hcd.1, hcd.2]
  obtain ⟨k1, hk1⟩ : ∃ k1, k1 = (b.x - a.x) / (b.y - a.y) := ⟨_, rfl⟩
  obtain ⟨k2, hk2⟩ : ∃ k2, k2 = (d.x - c.x) / (d.y - c.y) := ⟨_, rfl⟩
  have e1 : b.x - a.x = k1 * (b.y - a.y) := by rw [hk1]; field_simp
  have e2 : d.x - c.x = k2 * (d.y - c.y) := by rw [hk2]; field_simp
  -- φ t = (k1 - k2) t + (a.x - k1 a.y - c.x + k2 c.y)
  have f1 : side a b c = (b.y - a.y) * ((k1 - k2) * c.y + (a.x - k1 * a.y - c.x + k2 * c.y)) := by
    simp only [side, e1]; ring
  have f2 : side a b d = (b.y - a.y) * ((k1 - k2) * d.y + (a.x - k1 * a.y - c.x + k2 * c.y)) := by
    have : d.x = c.x + k2 * (d.y - c.y) := by linarith
    simp only [side, e1, this]; ring
  have f3 : side c d a = (d.y - c.y) * -((k1 - k2) * a.y + (a.x - k1 * a.y - c.x + k2 * c.y)) := by
    simp only [side, e2]; ring
  have f4 : side c d b = (d.y - c.y) * -((k1 - k2) * b.y + (a.x - k1 * a.y - c.x + k2 * c.y)) := by
    have : b.x = a.x + k1 * (b.y - a.y) := by linarith
    simp only [side, e2, this]; ring
  rw [f1, f2, f3, f4] at hs
  have hz : k1 - k2 = 0 ∧ a.x - k1 * a.y - c.x + k2 * c.y = 0 := by
    rcases hs with ⟨s1, s2, s3, s4⟩ | ⟨s1, s2, s3, s4⟩
    · have t1 := nonneg_of_mul_nonneg_right s1 hu
      have t2 := nonneg_of_mul_nonneg_right s2 hu
      have t3 := nonneg_of_mul_nonneg_right s3 hw
      have t4 := nonneg_of_mul_nonneg_right s4 hw
      exact lin_zero t1 t2 (by linarith) (by linarith) hab.1 hab.2 hcd.1 hcd.2
    · have t1 := nonpos_of_mul_nonpos_right s1 hu
      have t2 := nonpos_of_mul_nonpos_right s2 hu
      have t3 := nonpos_of_mul_nonpos_right s3 hw
      have t4 := nonpos_of_mul_nonpos_right s4 hw
      exact lin_zero (by linarith) (by linarith) t1 t2 hcd.1 hcd.2 hab.1 hab.2
  obtain ⟨z1, z2⟩ := hz
  have z1' : k2 = k1 := by linarith
  rw [z1'] at e2 z2
  refine ⟨k1, a.x - k1 * a.y, by ring, by linarith, by linarith, by linarith⟩

end Polygon
end Planar
