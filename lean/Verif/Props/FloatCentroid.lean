import Verif.Lemmas.FloatCentroid
import Verif.Lemmas.FloatAffine
import Verif.Props.Centroid
import Verif.Spec.DoubleCentroid
import Verif.Props.FloatGrid
import Verif.Props.FloatAffine
/- Property C84: the centroid in double precision. -/
set_option linter.unusedSectionVars false
namespace Planar
open Spec Polygon

theorem real_three : ((1 : Double) + 1 + 1).real = 3 := by
  have h2 : ((1 : Double) + 1).val = 2 := by
    have h := double_float 2 0 (by norm_num) (by norm_num) (by norm_num)
    rw [Fl.add_val, Fl.one_val]
    norm_num at h ⊢
    exact h
  have h3 : ((1 : Double) + 1 + 1).val = 3 := by
    have h := double_float 3 0 (by norm_num) (by norm_num) (by norm_num)
    rw [Fl.add_val, h2, Fl.one_val]
    norm_num at h ⊢
    exact h
  unfold Fl.real
  rw [h3]; norm_num

theorem cenRoom_of {M D T : ℝ} (hD : 1 / 2 ^ 300 ≤ D) (hDM : D ≤ 2 * M) (hM : M ≤ 2 ^ 300) (hT0 : 0 ≤ T)
    (hT : T ≤ 2 ^ 44 * (D * D)) : CenRoom M D T (2 ^ 1023) ∧ T ≤ 2 ^ 650 := by
  have i0 : (0 : ℝ) < 1 / 2 ^ 300 := by positivity
  have hD0 : 0 < D := lt_of_lt_of_le i0 hD
  have hM0 : 0 ≤ M := by linarith only [hDM, hD0]
  have hD1 : D ≤ 2 ^ 301 := by
    rw [pow_succ]; generalize (2 : ℝ) ^ 300 = N at hM ⊢; linarith only [hDM, hM]
  have hDD0 : 0 ≤ D * D := mul_nonneg hD0.le hD0.le
  have hDD : D * D ≤ 2 ^ 602 := by
    have := mul_le_mul hD1 hD1 hD0.le (by positivity)
    rwa [← pow_add] at this
  have hT1 : T ≤ 2 ^ 646 := by
    have := mul_le_mul_of_nonneg_left hDD (show (0 : ℝ) ≤ 2 ^ 44 by positivity)
    rw [← pow_add] at this
    exact hT.trans this
  have hMT : M * T ≤ 2 ^ 946 := by
    have := mul_le_mul hM hT1 hT0 (by positivity)
    rwa [← pow_add] at this
  have hME : M * (D * D) ≤ 2 ^ 902 := by
    have := mul_le_mul hM hDD hDD0 (by positivity)
    rwa [← pow_add] at this
  have up : ∀ {x : ℝ} {n : ℕ}, x ≤ 2 ^ n → n + 3 ≤ 1023 → 8 * x ≤ 2 ^ 1023 := by
    intro x n hx hn
    have h1 : (2 : ℝ) ^ (n + 3) ≤ 2 ^ 1023 := pow_le_real hn
    rw [pow_add] at h1
    generalize (2 : ℝ) ^ n = y at *
    generalize (2 : ℝ) ^ 1023 = z at *
    norm_num at h1
    linarith only [h1, hx]
  have iM : 1 / 2 ^ 301 ≤ M := by
    have : (1 : ℝ) / 2 ^ 301 = 1 / 2 ^ 300 * (1 / 2 ^ 1) := inv_pow_split (m := 300) (n := 1)
    rw [this]
    generalize (1 : ℝ) / 2 ^ 300 = g at *
    norm_num
    linarith only [hD, hDM]
  have iDD : 1 / 2 ^ 600 ≤ D * D := by
    have : (1 : ℝ) / 2 ^ 600 = 1 / 2 ^ 300 * (1 / 2 ^ 300) := inv_pow_split (m := 300) (n := 300)
    rw [this]
    exact mul_le_mul hD hD i0.le hD0.le
  have iMDD : 1 / 2 ^ 901 ≤ M * (D * D) := by
    have : (1 : ℝ) / 2 ^ 901 = 1 / 2 ^ 301 * (1 / 2 ^ 600) := inv_pow_split (m := 301) (n := 600)
    rw [this]
    exact mul_le_mul iM iDD (by positivity) hM0
  have small : ∀ {x : ℝ} {n : ℕ}, 1 / 2 ^ n ≤ x → n ≤ 1000 → 1000 * ηR ≤ uR * x := fun hx hn =>
    (ηR_le (by omega)).trans (mul_le_mul_of_nonneg_left hx uR_pos.le)
  have u1 := up hT1 (by norm_num)
  have u2 := up hDD (by norm_num)
  have u3 := up hMT (by norm_num)
  have u4 := up hME (by norm_num)
  have u5 := up hM (by norm_num)
  have u6 := up hD1 (by norm_num)
  have hMT0 : 0 ≤ M * T := mul_nonneg hM0 hT0
  refine ⟨⟨rfl, hM0, hD0.le, hT0, ?_, ?_, ?_, ?_, small iM (by norm_num), small iDD (by norm_num), small iMDD (by norm_num)⟩,
    hT1.trans (pow_le_real (by norm_num))⟩ <;> generalize (2 : ℝ) ^ 1023 = Q at *
  · linarith only [u5, hM0]
  · linarith only [u6, hD0]
  · linarith only [u1, u2, hT0, hDD0]
  · linarith only [u3, u4, hMT0, mul_nonneg hM0 hDD0]

section
variable {K : Type} [Add K] [Sub K] [Mul K] [Div K] [Zero K] [One K] [BEq K]
theorem sdiv_ok {v : Vec2 K} {k : K} (h : (k == 0) = false) : v.sdiv k = .ok ⟨v.x / k, v.y / k⟩ := by
  unfold Vec2.sdiv pydiv
  simp only [h, Bool.false_eq_true, if_false, bind, Except.bind, pure, Except.pure]

theorem compute_cons {a b z : Vec2 K} {l : List (Vec2 K)} (hz : Vec2.mk' 0 0 = z)
    (h : ((1 + 1 + 1) * (centroidLoop a l b z 0).2 == 0) = false) :
    computeCentroid (a :: b :: l) = .ok ⟨(centroidLoop a l b z 0).1.x / ((1 + 1 + 1) * (centroidLoop a l b z 0).2),
      (centroidLoop a l b z 0).1.y / ((1 + 1 + 1) * (centroidLoop a l b z 0).2)⟩ := by
  subst hz
  have g0 : pyGet (a :: b :: l) 0 = .ok a := by simp [pyGet, pyIndex]
  have g1 : pyGet (a :: b :: l) 1 = .ok b := by simp [pyGet, pyIndex]
  unfold computeCentroid
  simp only [g0, g1, bind, Except.bind, List.drop_succ_cons, List.drop_zero]
  exact sdiv_ok h
end

theorem beq_zero_of_real {x : Double} (h : x.real ≠ 0) : (x == 0) = false := by
  rw [beq_eq_false_iff_ne]
  rintro rfl
  exact h real_zero

/-- The vertices are exact: what the code computes from them. -/
theorem cen_compute {vs : List (Vec2 Double)} (h2 : 3 ≤ vs.length) {M D : ℝ} (hD : 1 / 2 ^ 300 ≤ D) (hDM : D ≤ 2 * M)
    (hM : M ≤ 2 ^ 300) (hm : ∀ v ∈ vs, |v.x.real| ≤ M ∧ |v.y.real| ≤ M)
    (hd : ∀ u ∈ vs, ∀ v ∈ vs, |u.x.real - v.x.real| ≤ D ∧ |u.y.real - v.y.real| ≤ D)
    (hA : vs.length * (D ^ 2 + fanArea (vs.map toReal)) ≤ 2 ^ 43 * |area2 (vs.map toReal)|) :
    ∃ c, computeCentroid vs = .ok c ∧
      |c.x.real - (areaCentroid (vs.map toReal)).x| ≤ 1 / 2 ^ 48 * vs.length *
        ((D ^ 2 + fanArea (vs.map toReal)) / |area2 (vs.map toReal)|) * (fanArea (vs.map toReal) / |area2 (vs.map toReal)|) * M ∧
      |c.y.real - (areaCentroid (vs.map toReal)).y| ≤ 1 / 2 ^ 48 * vs.length *
        ((D ^ 2 + fanArea (vs.map toReal)) / |area2 (vs.map toReal)|) * (fanArea (vs.map toReal) / |area2 (vs.map toReal)|) * M := by
  rcases vs with _ | ⟨a, _ | ⟨b, l⟩⟩
  · simp at h2
  · simp at h2
  have hn : (3 : ℝ) ≤ ((a :: b :: l).length : ℝ) := by exact_mod_cast h2
  have hl2 : ((a :: b :: l).length : ℝ) = l.length + 2 := by push_cast [List.length_cons]; ring
  have hl0 : (0 : ℝ) ≤ l.length := Nat.cast_nonneg _
  simp only [List.map_cons] at hA ⊢
  have fx := fan_momentX (toReal a) (toReal b) (l.map toReal)
  have fy := fan_momentY (toReal a) (toReal b) (l.map toReal)
  have fa := fan_area (toReal a) (toReal b) (l.map toReal)
  set V := toReal a :: toReal b :: l.map toReal with hV
  set n : ℝ := ((a :: b :: l).length : ℝ) with hndef
  set T := fanArea V with hT
  have hT' : T = ((edgesFrom (toReal b) (l.map toReal)).map fun e => |side (toReal a) e.1 e.2|).sum := rfl
  set A := |area2 V| with hAdef
  have hT0 : 0 ≤ T := by
    rw [hT']
    apply List.sum_nonneg
    intro x hx
    obtain ⟨e, -, rfl⟩ := List.mem_map.mp hx
    exact abs_nonneg _
  have i0 : (0 : ℝ) < 1 / 2 ^ 300 := by positivity
  have hD0 : 0 < D := lt_of_lt_of_le i0 hD
  have hDD0 : 0 < D * D := mul_pos hD0 hD0
  have hM0 : 0 ≤ M := by linarith only [hDM, hD0]
  have sq : D ^ 2 = D * D := by ring
  rw [sq] at hA ⊢
  have ha := hm a List.mem_cons_self
  have hin : ∀ v ∈ b :: l, CenIn M D a v := fun v hv =>
    ⟨(hm v (List.mem_cons_of_mem _ hv)).1, (hm v (List.mem_cons_of_mem _ hv)).2,
      (hd v (List.mem_cons_of_mem _ hv) a List.mem_cons_self).1, (hd v (List.mem_cons_of_mem _ hv) a List.mem_cons_self).2⟩
  -- the sum of the triangles
  have hTn : T ≤ l.length * (2 * (D * D)) := by
    rw [hT']
    have key : ∀ (l : List (Vec2 Double)) (b : Vec2 Double), (∀ v ∈ b :: l, CenIn M D a v) →
        ((edgesFrom (toReal b) (l.map toReal)).map fun e => |side (toReal a) e.1 e.2|).sum ≤ l.length * (2 * (D * D)) := by
      intro l
      induction l with
      | nil => intro b _; simp [edgesFrom]
      | cons c l ih =>
        intro b hv
        have hb := hv b List.mem_cons_self
        have hc := hv c (List.mem_cons_of_mem _ List.mem_cons_self)
        have := ih c fun v hv' => hv v (List.mem_cons_of_mem _ hv')
        rw [List.map_cons, edgesFrom_cons, List.map_cons, List.sum_cons]
        have h1 : |side (toReal a) (toReal b) (toReal c)| ≤ 2 * (D * D) := by
          unfold side toReal
          refine (abs_sub _ _).trans ?_
          rw [abs_mul, abs_mul, two_mul]
          exact add_le_add (mul_le_mul hb.2.2.1 hc.2.2.2 (abs_nonneg _) hD0.le)
            (mul_le_mul hb.2.2.2 hc.2.2.1 (abs_nonneg _) hD0.le)
        push_cast [List.length_cons]
        linarith only [h1, this]
    exact key l b hin
  have hAT : A ≤ T := by
    rw [hAdef, ← fa, hT']
    generalize edgesFrom (toReal b) (l.map toReal) = es
    induction es with
    | nil => simp
    | cons e es ih =>
      simp only [List.map_cons, List.sum_cons]
      exact (abs_add_le _ _).trans (add_le_add le_rfl ih)
  have hA0 : 0 < A := by
    by_contra hc
    have : A = 0 := le_antisymm (not_lt.mp hc) (abs_nonneg _)
    rw [this, mul_zero] at hA
    have h1 : 0 < n * (D * D + T) := mul_pos (by linarith only [hn]) (by linarith only [hDD0, hT0])
    linarith only [hA, h1]
  have hTpos : 0 < T := lt_of_lt_of_le hA0 hAT
  have hn43 : n ≤ 2 ^ 43 := by
    have h1 : n * T ≤ 2 ^ 43 * T := by
      have h2 : n * T ≤ n * (D * D + T) := mul_le_mul_of_nonneg_left (by linarith only [hDD0]) (by linarith only [hn])
      have h3 : (2 : ℝ) ^ 43 * A ≤ 2 ^ 43 * T := mul_le_mul_of_nonneg_left hAT (by positivity)
      linarith only [hA, h2, h3]
    exact le_of_mul_le_mul_right h1 hTpos
  have hT44 : T ≤ 2 ^ 44 * (D * D) := by
    have h1 : (l.length : ℝ) * (2 * (D * D)) ≤ 2 ^ 43 * (2 * (D * D)) :=
      mul_le_mul_of_nonneg_right (by linarith only [hl2, hn43]) (by linarith only [hDD0])
    have e : (2 : ℝ) ^ 43 * (2 * (D * D)) = 2 ^ 44 * (D * D) := by ring
    linarith only [hTn, h1, e]
  obtain ⟨R, hT650⟩ := cenRoom_of hD hDM hM hT0 hT44
  have hu := uR_pos.le
  have ulen : (0 + (l.length : ℝ)) * uR ≤ 1 / 1000 := by
    have h1 : (l.length : ℝ) * uR ≤ 2 ^ 43 * uR := mul_le_mul_of_nonneg_right (by linarith only [hl2, hn43]) hu
    have h2 : (2 : ℝ) ^ 43 * uR ≤ 1 / 1000 := by norm_num [uR]
    rw [zero_add]; exact h1.trans h2
  have z0 : (Vec2.mk' (0 : Double) 0) = ⟨0, 0⟩ := by
    simp only [Vec2.mk', f_mul_one]
  have hb0 : 0 ≤ cenB M D T ∧ 0 ≤ cenB' D T := by
    unfold cenB cenB'
    have := mul_nonneg hM0 hDD0.le
    have := mul_nonneg hM0 hT0
    exact ⟨mul_nonneg hu (by linarith), mul_nonneg hu (by linarith)⟩
  obtain ⟨L1, L2, L3, L4, L5, L6⟩ := cen_loop R ha.1 ha.2 l b ⟨0, 0⟩ 0 0 0 0 0 0 hin le_rfl ulen le_rfl
    (by rw [abs_zero, mul_zero, mul_zero]) (by rw [abs_zero, mul_zero, mul_zero]) (by rw [abs_zero])
    (by rw [zero_add, ← hT']) (by rw [real_zero, sub_zero, abs_zero, zero_mul]) (by rw [real_zero, sub_zero, abs_zero, zero_mul])
    (by rw [real_zero, sub_zero, abs_zero, zero_mul])
  simp only [zero_add, fx, fy, fa] at L1 L2 L3 L4 L5 L6
  -- the amount of cancellation
  set z := uR * (n * ((D * D + T) / A)) with hz
  have hκ : 1 ≤ n * ((D * D + T) / A) := by
    have : 1 ≤ (D * D + T) / A := by rw [le_div_iff₀ hA0]; linarith only [hDD0, hAT]
    have h1 := mul_le_mul hn this zero_le_one (by linarith only [hn])
    linarith only [h1]
  have hκ' : n * ((D * D + T) / A) ≤ 2 ^ 43 := by
    rw [← mul_div_assoc, div_le_iff₀ hA0]; exact hA
  have hz1 : uR ≤ z := le_mul_of_one_le_right hu hκ
  have hz2 : z ≤ 1 / 1000 := by
    have h1 := mul_le_mul_of_nonneg_left hκ' hu
    have h2 : uR * (2 : ℝ) ^ 43 ≤ 1 / 1000 := by norm_num [uR]
    exact h1.trans h2
  have hzA : z * A = uR * (n * (D * D + T)) := by
    rw [hz]; field_simp
  have nle : (l.length : ℝ) ≤ n := by linarith only [hl2]
  have X : (l.length : ℝ) * cenB M D T ≤ 40 * (z * (M * A)) := by
    have e1 : 40 * (z * (M * A)) = 40 * (M * (z * A)) := by ring
    have e2 : (l.length : ℝ) * cenB M D T ≤ n * cenB M D T := mul_le_mul_of_nonneg_right nle hb0.1
    have e3 : 40 * (M * (uR * (n * (D * D + T)))) - n * cenB M D T = 20 * (uR * (n * (M * T))) := by unfold cenB; ring
    have e4 : 0 ≤ uR * (n * (M * T)) := mul_nonneg hu (mul_nonneg (by linarith only [hn]) (mul_nonneg hM0 hT0))
    rw [e1, hzA]
    linarith only [e2, e3, e4]
  have Y : (l.length : ℝ) * cenB' D T ≤ 12 * (z * A) := by
    have e2 : (l.length : ℝ) * cenB' D T ≤ n * cenB' D T := mul_le_mul_of_nonneg_right nle hb0.2
    have e3 : 12 * (uR * (n * (D * D + T))) - n * cenB' D T = 8 * (uR * (n * T)) := by unfold cenB'; ring
    have e4 : 0 ≤ uR * (n * T) := mul_nonneg hu (mul_nonneg (by linarith only [hn]) hT0)
    rw [hzA]
    linarith only [e2, e3, e4]
  have hη1 : 1000 * ηR ≤ z * A := by
    have h1 := R.e2
    have h2 : uR * (D * D) ≤ uR * (n * (D * D + T)) := by
      refine mul_le_mul_of_nonneg_left ?_ hu
      have := le_mul_of_one_le_left (show 0 ≤ D * D + T by linarith only [hDD0, hT0]) (show 1 ≤ n by linarith only [hn])
      linarith only [this, hT0]
    rw [hzA]; exact h1.trans h2
  have hη2 : 1000 * ηR ≤ z * M := R.e1.trans (mul_le_mul_of_nonneg_right hz1 hM0)
  -- three times the area
  have big : (2 : ℝ) ^ 652 ≤ 2 ^ 1023 := pow_le_real (by norm_num)
  have e652 : (2 : ℝ) ^ 652 = 4 * 2 ^ 650 := by
    have : ∀ k : ℕ, (2 : ℝ) ^ (k + 2) = 4 * 2 ^ k := by intro k; rw [pow_add]; ring
    exact this 650
  rw [e652] at big
  set tot := (centroidLoop a l b ⟨0, 0⟩ 0).2 with htot
  set cen := (centroidLoop a l b ⟨0, 0⟩ 0).1 with hcen
  have h3 := mul_ok (1 + 1 + 1) tot (by
    rw [real_three]
    have := (cenFinE (c := 0) (c' := 0) (t3 := 3 * tot.real) (q := 0) (M := M) (η := ηR) hu hz1 hz2 hM0 hA0 hAT rfl hη1 hη2
      (by rw [abs_zero]; have := mul_nonneg hM0 hT0; linarith only [this])
      (by rw [sub_self, abs_zero]; have := mul_nonneg (hu.trans hz1) (mul_nonneg hM0 hA0.le); linarith only [this])
      (L3.trans Y) cenTriv (by rw [zero_div, sub_self, abs_zero, mul_zero, zero_add]; exact ηR_pos)).2.2.1
    generalize (2 : ℝ) ^ 650 = P at *
    generalize (2 : ℝ) ^ 1023 = Q at *
    linarith only [this, hAT, hT650, big])
  rw [real_three] at h3
  have coord : ∀ {x : Double} {m : ℝ}, |x.real - m| ≤ l.length * cenB M D T → |m| ≤ 3 * (M * T) →
      ((1 + 1 + 1) * tot).real ≠ 0 ∧
      |(x / ((1 + 1 + 1) * tot)).real - m / (3 * area2 V)| ≤ 1 / 2 ^ 48 * n * ((D * D + T) / A) * (T / A) * M := by
    intro x m hx hm
    have first := cenFinE (η := ηR) (q := x.real / ((1 + 1 + 1) * tot).real) hu hz1 hz2 hM0 hA0 hAT rfl hη1 hη2 hm (hx.trans X) (L3.trans Y) h3 cenTriv
    refine ⟨first.2.1, ?_⟩
    have hq := div_ok x ((1 + 1 + 1) * tot) (by
      have h1 := first.2.2.2
      have h2 : T / A ≤ 2 ^ 43 := by
        rw [div_le_iff₀ hA0]
        have h4 : T ≤ n * (D * D + T) := by
          have := le_mul_of_one_le_left (show 0 ≤ D * D + T by linarith only [hDD0, hT0]) (show 1 ≤ n by linarith only [hn])
          linarith only [this, hDD0]
        exact h4.trans hA
      have h5 : M * (T / A) ≤ 2 ^ 300 * 2 ^ 43 := mul_le_mul hM h2 (div_nonneg hT0 hA0.le) (by positivity)
      rw [← pow_add] at h5
      have h6 : (2 : ℝ) ^ 344 ≤ 2 ^ 1023 := pow_le_real (by norm_num)
      have h7 : (2 : ℝ) ^ 344 = 2 * 2 ^ 343 := by
        have : ∀ k : ℕ, (2 : ℝ) ^ (k + 1) = 2 * 2 ^ k := by intro k; rw [pow_succ]; ring
        exact this 343
      rw [h7] at h6
      norm_num only at h5
      generalize (2 : ℝ) ^ 343 = P at *
      generalize (2 : ℝ) ^ 1023 = Q at *
      linarith only [h1, h5, h6])
    have := (cenFinE hu hz1 hz2 hM0 hA0 hAT rfl hη1 hη2 hm (hx.trans X) (L3.trans Y) h3 hq).1
    refine this.trans (le_of_eq ?_)
    have e48 : 1 / (2 : ℝ) ^ 48 = 32 * uR := by norm_num [uR]
    rw [e48, hz]; ring
  obtain ⟨nz, cx⟩ := coord L1 L4
  obtain ⟨-, cy⟩ := coord L2 L5
  exact ⟨_, compute_cons z0 (beq_zero_of_real nz), cx, cy⟩

/-- **C84** the centroid in doubles. `D` bounds the width and height of the polygon, `M` its coordinates, `T` is twice the area of
the triangles from the first vertex and `A` twice the area of the polygon: after every history of reads and edits, when the polygon
is found simple and is not too thin, a centroid is returned and each coordinate is within `n (D² + T)/A (T/A) M / 2^48` of the
centroid of the exact polygon with these vertices. -/
theorem C84_centroid (eps : Double) (vs : List (Vec2 Double)) (s0 : Polygon Double) (h : Polygon.new vs = .ok s0)
    (ops : List (PolyOp Double)) :
    let s := s0.after eps ops
    ∀ M D : ℝ, s.isSimple.1 = true → 1 / 2 ^ 300 ≤ D → D ≤ 2 * M → M ≤ 2 ^ 300 →
      (∀ v ∈ s.verts, |(toReal v).x| ≤ M ∧ |(toReal v).y| ≤ M) →
      (∀ u ∈ s.verts, ∀ v ∈ s.verts, |(toReal u).x - (toReal v).x| ≤ D ∧ |(toReal u).y - (toReal v).y| ≤ D) →
      s.verts.length * (D ^ 2 + fanArea (s.verts.map toReal)) ≤ 2 ^ 43 * |area2 (s.verts.map toReal)| →
      let bound := 1 / 2 ^ 48 * s.verts.length * ((D ^ 2 + fanArea (s.verts.map toReal)) / |area2 (s.verts.map toReal)|) *
        (fanArea (s.verts.map toReal) / |area2 (s.verts.map toReal)|) * M
      ∃ c, s.getCentroid.1 = .ok (some c) ∧
        |(toReal c).x - (areaCentroid (s.verts.map toReal)).x| ≤ bound ∧
        |(toReal c).y - (areaCentroid (s.verts.map toReal)).y| ≤ bound := by
  intro s M D hs hD hDM hM hm hd hA bound
  have h3 : 3 ≤ vs.length := by
    by_contra hc
    rw [(C43_new vs none none).1 (by omega)] at h
    cases h
  rw [C44_fresh_new eps vs h3] at h
  injection h with h
  subst h
  obtain ⟨hi, hlen, -⟩ := inv_after (inv_fromPoints eps vs) ops
  have hlen : s.verts.length = vs.length := hlen
  change Inv eps s at hi
  rw [(inv_isSimple hi).1] at hs
  obtain ⟨c, hc, hx, hy⟩ := cen_compute (vs := s.verts) (by omega) hD hDM hM hm hd hA
  refine ⟨c, ?_, hx, hy⟩
  rw [(inv_getCentroid hi).1, centroidVal, hs, if_pos rfl, hc]
  rfl

/-- For a polygon with all vertices on one side of every edge the triangles do not overlap. -/
theorem fanArea_oneSided {V : List (Vec2 ℝ)} (h : OneSided V) : fanArea V = |area2 V| := by
  rcases V with _ | ⟨a, _ | ⟨b, l⟩⟩
  · simp [fanArea, area2, edges]
  · simp [fanArea, area2, edges_cons, edgesFrom, wedge]
  have rot : ∀ u v : Vec2 ℝ, side a u v = side u v a := fun u v => by simp only [side]; ring
  have mem : ∀ e ∈ edgesFrom b l, e ∈ edges (a :: b :: l) := by
    intro e he
    rw [edges_cons, edgesFrom_cons]
    exact List.mem_cons_of_mem _ (List.mem_cons_of_mem _ he)
  rw [← fan_area]
  unfold fanArea
  have key : ∀ es : List (Vec2 ℝ × Vec2 ℝ), ((∀ e ∈ es, 0 ≤ side a e.1 e.2) →
      (es.map fun e => |side a e.1 e.2|).sum = (es.map fun e => side a e.1 e.2).sum ∧ 0 ≤ (es.map fun e => side a e.1 e.2).sum) ∧
      ((∀ e ∈ es, side a e.1 e.2 ≤ 0) →
      (es.map fun e => |side a e.1 e.2|).sum = -(es.map fun e => side a e.1 e.2).sum ∧ (es.map fun e => side a e.1 e.2).sum ≤ 0) := by
    intro es
    induction es with
    | nil => simp
    | cons e es ih =>
      simp only [List.map_cons, List.sum_cons]
      constructor
      · intro hp
        have h1 := hp e List.mem_cons_self
        obtain ⟨h2, h3⟩ := ih.1 fun e he => hp e (List.mem_cons_of_mem _ he)
        exact ⟨by rw [h2, abs_of_nonneg h1], by linarith only [h1, h3]⟩
      · intro hp
        have h1 := hp e List.mem_cons_self
        obtain ⟨h2, h3⟩ := ih.2 fun e he => hp e (List.mem_cons_of_mem _ he)
        exact ⟨by rw [h2, abs_of_nonpos h1]; ring, by linarith only [h1, h3]⟩
  rcases h with h | h
  · obtain ⟨h1, h2⟩ := (key (edgesFrom b l)).1 fun e he => by
      rw [rot]; exact h e (mem e he) a List.mem_cons_self
    rw [abs_of_nonneg h2]; exact h1
  · obtain ⟨h1, h2⟩ := (key (edgesFrom b l)).2 fun e he => by
      rw [rot]; exact h e (mem e he) a List.mem_cons_self
    rw [abs_of_nonpos h2]; exact h1

/-- **C84** for a convex polygon the error is within `n (D²/A + 1) M / 2^48`. -/
theorem C84_convex (eps : Double) (vs : List (Vec2 Double)) (s0 : Polygon Double) (h : Polygon.new vs = .ok s0)
    (ops : List (PolyOp Double)) :
    let s := s0.after eps ops
    ∀ M D : ℝ, s.isSimple.1 = true → OneSided (s.verts.map toReal) → 1 / 2 ^ 300 ≤ D → D ≤ 2 * M → M ≤ 2 ^ 300 →
      (∀ v ∈ s.verts, |(toReal v).x| ≤ M ∧ |(toReal v).y| ≤ M) →
      (∀ u ∈ s.verts, ∀ v ∈ s.verts, |(toReal u).x - (toReal v).x| ≤ D ∧ |(toReal u).y - (toReal v).y| ≤ D) →
      s.verts.length * D ^ 2 ≤ 2 ^ 42 * |area2 (s.verts.map toReal)| → (s.verts.length : ℝ) ≤ 2 ^ 42 →
      let bound := 1 / 2 ^ 48 * s.verts.length * (D ^ 2 / |area2 (s.verts.map toReal)| + 1) * M
      ∃ c, s.getCentroid.1 = .ok (some c) ∧
        |(toReal c).x - (areaCentroid (s.verts.map toReal)).x| ≤ bound ∧
        |(toReal c).y - (areaCentroid (s.verts.map toReal)).y| ≤ bound := by
  intro s M D hs ho hD hDM hM hm hd hA hn bound
  have hf := fanArea_oneSided ho
  have hn0 : s.verts ≠ [] := by
    intro h0
    have hlen := (inv_after (inv_fromPoints eps vs) ops).2.1
    have h3 : 3 ≤ vs.length := by
      by_contra hc
      rw [(C43_new vs none none).1 (by omega)] at h
      cases h
    rw [C44_fresh_new eps vs h3] at h
    injection h with h
    subst h
    have hlen : s.verts.length = vs.length := hlen
    rw [h0] at hlen
    simp at hlen
    omega
  have hn1 : (0 : ℝ) < s.verts.length := by exact_mod_cast List.length_pos_iff.mpr hn0
  have i0 : (0 : ℝ) < 1 / 2 ^ 300 := by positivity
  have hD0 : 0 < D := lt_of_lt_of_le i0 hD
  have hDD : 0 < D ^ 2 := pow_pos hD0 2
  have key := C84_centroid eps vs s0 h ops
  have hA0 : 0 < |area2 (s.verts.map toReal)| := by
    have h1 := mul_pos hn1 hDD
    by_contra hc
    have h2 : |area2 (s.verts.map toReal)| = 0 := le_antisymm (not_lt.mp hc) (abs_nonneg _)
    rw [h2, mul_zero] at hA
    linarith only [hA, h1]
  obtain ⟨c, hc, hx, hy⟩ := key M D hs hD hDM hM hm hd (by
    rw [hf]
    have h1 := mul_le_mul_of_nonneg_right hn (abs_nonneg (area2 (s.verts.map toReal)))
    have e : (2 : ℝ) ^ 43 = 2 * 2 ^ 42 := by norm_num
    rw [e, mul_add]
    linarith only [h1, hA])
  rw [hf, add_div, div_self hA0.ne', mul_one] at hx hy
  exact ⟨c, hc, hx, hy⟩

/-- An L-shaped polygon meets the hypotheses of C84_centroid. -/
example (eps : Double) : let vs := [dvec 10 10, dvec 14 10, dvec 14 12, dvec 12 12, dvec 12 14, dvec 10 14]
    ∃ s0, Polygon.new vs = .ok s0 ∧ s0.isSimple.1 = true ∧ area2 (vs.map toReal) = 24 ∧ fanArea (vs.map toReal) = 24 ∧
      areaCentroid (vs.map toReal) = ⟨35 / 3, 35 / 3⟩ ∧
      ∃ c, s0.getCentroid.1 = .ok (some c) ∧ |(toReal c).x - 35 / 3| ≤ 140 / 2 ^ 48 ∧ |(toReal c).y - 35 / 3| ≤ 140 / 2 ^ 48 := by
  intro vs
  have e : vs.map toReal = [⟨10, 10⟩, ⟨14, 10⟩, ⟨14, 12⟩, ⟨12, 12⟩, ⟨12, 14⟩, ⟨10, 14⟩] := by
    have h := fun (n : ℤ) (hn : |n| ≤ 2 ^ 53) => dbl_int n hn
    have h10 := h 10 (by norm_num)
    have h12 := h 12 (by norm_num)
    have h14 := h 14 (by norm_num)
    norm_num at h10 h12 h14
    simp only [vs, List.map_cons, List.map_nil, toReal, dvec, h10, h12, h14]
  have hn : Polygon.new vs = .ok (fromPoints vs) := C44_fresh_new eps vs (by simp [vs])
  have hs : (fromPoints vs).isSimple.1 = true := by decide +kernel
  have hT : fanArea (vs.map toReal) = 24 := by
    rw [e]; norm_num [fanArea, side, edgesFrom]
  have hA : area2 (vs.map toReal) = 24 := by
    rw [e]; norm_num [area2, edges_cons, edgesFrom, wedge]
  have hc : areaCentroid (vs.map toReal) = ⟨35 / 3, 35 / 3⟩ := by
    unfold areaCentroid
    rw [hA, e]
    norm_num [momentX, momentY, edges_cons, edgesFrom, wedge]
  refine ⟨_, hn, hs, hA, hT, hc, ?_⟩
  have i1 : (1 : ℝ) / 2 ^ 300 ≤ 4 := (div_le_one (by positivity)).mpr (one_le_pow₀ (by norm_num)) |>.trans (by norm_num)
  have i2 : (14 : ℝ) ≤ 2 ^ 300 := le_trans (by norm_num : (14 : ℝ) ≤ 2 ^ 4) (pow_le_real (by norm_num))
  have key := C84_centroid eps vs _ hn [] 14 4 hs i1 (by norm_num) i2
  clear i1 i2
  have hv : ((fromPoints vs).after eps []).verts = vs := rfl
  simp only [hv] at key
  have hm : ∀ v ∈ vs, v = dvec 10 10 ∨ v = dvec 14 10 ∨ v = dvec 14 12 ∨ v = dvec 12 12 ∨ v = dvec 12 14 ∨ v = dvec 10 14 := by
    intro v hv
    simpa only [vs, List.mem_cons, List.not_mem_nil, or_false] using hv
  have hr : ∀ v ∈ vs, (10 ≤ (toReal v).x ∧ (toReal v).x ≤ 14) ∧ (10 ≤ (toReal v).y ∧ (toReal v).y ≤ 14) := by
    intro v hv
    have : toReal v ∈ vs.map toReal := List.mem_map_of_mem hv
    rw [e] at this
    simp only [List.mem_cons, List.not_mem_nil, or_false] at this
    rcases this with h | h | h | h | h | h <;> rw [h] <;> norm_num
  obtain ⟨c, h1, h2, h3⟩ := key
    (fun v hv => by
      obtain ⟨⟨a1, a2⟩, a3, a4⟩ := hr v hv
      exact ⟨abs_le.mpr ⟨by linarith only [a1], a2⟩, abs_le.mpr ⟨by linarith only [a3], a4⟩⟩)
    (fun u hu v hv => by
      obtain ⟨⟨a1, a2⟩, a3, a4⟩ := hr v hv
      obtain ⟨⟨b1, b2⟩, b3, b4⟩ := hr u hu
      exact ⟨abs_le.mpr ⟨by linarith only [a2, b1], by linarith only [a1, b2]⟩,
        abs_le.mpr ⟨by linarith only [a4, b3], by linarith only [a3, b4]⟩⟩)
    (by rw [hA, hT]; norm_num [vs])
  rw [hA, hT, hc] at h2 h3
  refine ⟨c, h1, h2.trans ?_, h3.trans ?_⟩ <;> norm_num [vs]

def raisesZeroDiv {α : Type} : Py α → Bool
  | .error .zeroDivisionError => true
  | _ => false

/-- **C84** the size and thinness conditions are needed: two triangles of positive area whose centroid raises
ZeroDivisionError, one with integer coordinates below 2^31 and one with legs 2^-600. -/
theorem C84_thin_tiny :
    let a := [dvec 0 0, dvec (2 ^ 30) (2 ^ 30 - 1), dvec (2 ^ 30 + 1) (2 ^ 30)]
    let b := [dvec 0 0, dvec (1 / 2 ^ 600) 0, dvec 0 (1 / 2 ^ 600)]
    (area2 (a.map fun v => (⟨v.x.val, v.y.val⟩ : Vec2 ℚ)) = 1 ∧ ∃ s, Polygon.new a = .ok s ∧ s.isSimple.1 = true ∧ s.getCentroid.1 = .error .zeroDivisionError) ∧
    (0 < area2 (b.map fun v => (⟨v.x.val, v.y.val⟩ : Vec2 ℚ)) ∧ ∃ s, Polygon.new b = .ok s ∧ s.isSimple.1 = true ∧ s.getCentroid.1 = .error .zeroDivisionError) := by
  intro a b
  have conv : ∀ {α : Type} {x : Py α}, raisesZeroDiv x = true → x = .error .zeroDivisionError := by
    intro α x h
    unfold raisesZeroDiv at h
    split at h
    · rfl
    · cases h
  have h1 : area2 (a.map fun v => (⟨v.x.val, v.y.val⟩ : Vec2 ℚ)) = 1 := by decide +kernel
  have h2 : 0 < area2 (b.map fun v => (⟨v.x.val, v.y.val⟩ : Vec2 ℚ)) := by decide +kernel
  have h3 : raisesZeroDiv (fromPoints a).getCentroid.1 = true := by decide +kernel
  have h4 : raisesZeroDiv (fromPoints b).getCentroid.1 = true := by decide +kernel
  exact ⟨⟨h1, _, C44_fresh_new (dbl 0) a (by simp [a]), rfl, conv h3⟩, h2, _, C44_fresh_new (dbl 0) b (by simp [b]), rfl, conv h4⟩

end Planar
