import Verif.Lemmas.Basic
import Verif.Lemmas.RealBasic
/-
Properties C01-C07, C10, C11 (vectors). `a == b` between Python vectors is exact equality of both
coordinates, which is `=` here.
-/
set_option linter.unusedSectionVars false
namespace Planar
open Vec2

section Field
variable {K : Type} [Field K] [LinearOrder K] [IsStrictOrderedRing K]

/-- **C01** the vector-space laws. -/
theorem C01_vector_space (a b c : Vec2 K) (k m : K) :
    a + b = b + a ∧ (a + b) + c = a + (b + c) ∧ (a - b) + b = a ∧ a + (-a) = null ∧ a + null = a ∧
    (a + b).smul k = a.smul k + b.smul k ∧ (a.smul m).smul k = a.smul (k * m) ∧
    a.smul (k + m) = a.smul k + a.smul m ∧ a.smul 1 = a ∧ a - b = a + (-b) := by
  refine ⟨?_, ?_, ?_, ?_, ?_, ?_, ?_, ?_, ?_, ?_⟩ <;> ext <;> simp <;> ring

/-- **C01** the operators act on the components, whatever the arithmetic (so in floating point too). -/
theorem C01_components {F : Type} [Add F] [Sub F] [Mul F] [Neg F] [Zero F] (a b : Vec2 F) (k : F) :
    a + b = ⟨a.x + b.x, a.y + b.y⟩ ∧ a - b = ⟨a.x - b.x, a.y - b.y⟩ ∧ -a = ⟨-a.x, -a.y⟩ ∧ a.smul k = ⟨a.x * k, a.y * k⟩ ∧
    a.vmul b = ⟨a.x * b.x, a.y * b.y⟩ ∧ (null : Vec2 F) = ⟨0, 0⟩ ∧ a.perpendicular = ⟨-a.y, a.x⟩ :=
  ⟨rfl, rfl, rfl, rfl, rfl, rfl, rfl⟩

/-- **C01** division by a scalar: the product with the inverse, or ZeroDivisionError. -/
theorem C01_div_scalar (v : Vec2 K) (k : K) :
    (k ≠ 0 → v.sdiv k = .ok (v.smul (1 / k))) ∧ (k = 0 → v.sdiv k = .error .zeroDivisionError) := by
  constructor
  · intro h
    simp only [sdiv, pydiv_ok h]
    change Except.ok _ = _
    congr 1
    ext <;> simp <;> field_simp
  · rintro rfl; simp [sdiv]; rfl

/-- **C01** division by a vector: componentwise, ZeroDivisionError exactly for a zero component. -/
theorem C01_div_vector (v w : Vec2 K) :
    ((w.x ≠ 0 ∧ w.y ≠ 0) → v.vdiv w = .ok ⟨v.x / w.x, v.y / w.y⟩) ∧
    ((w.x = 0 ∨ w.y = 0) → v.vdiv w = .error .zeroDivisionError) := by
  constructor
  · rintro ⟨h, h'⟩
    simp only [vdiv, pydiv_ok h, pydiv_ok h']; rfl
  · intro h
    by_cases hx : w.x = 0
    · simp [vdiv, hx]; rfl
    · have hy : w.y = 0 := by tauto
      simp [vdiv, hy, pydiv_ok hx]; rfl

/-- **C01** a scalar divided by a vector (reflected division). -/
theorem C01_rdiv (v : Vec2 K) (k : K) :
    ((v.x ≠ 0 ∧ v.y ≠ 0) → v.rsdiv k = .ok ⟨k / v.x, k / v.y⟩) ∧
    ((v.x = 0 ∨ v.y = 0) → v.rsdiv k = .error .zeroDivisionError) := by
  constructor
  · rintro ⟨h, h'⟩
    simp only [rsdiv, pydiv_ok h, pydiv_ok h']; rfl
  · intro h
    by_cases hx : v.x = 0
    · simp [rsdiv, hx]; rfl
    · have hy : v.y = 0 := by tauto
      simp [rsdiv, hy, pydiv_ok hx]; rfl

example : (⟨3, 4⟩ : Vec2 ℚ).sdiv 2 = .ok ⟨3/2, 2⟩ := by
  rw [(C01_div_scalar _ _).1 (by norm_num)]; simp [Vec2.smul]; norm_num
example : (⟨3, 4⟩ : Vec2 ℚ).vdiv ⟨1, 0⟩ = .error .zeroDivisionError :=
  (C01_div_vector _ _).2 (Or.inr rfl)

/-- **C02** the perpendicular vector, dot and cross products. -/
theorem C02_dot_cross (a b c : Vec2 K) (k : K) :
    a.perpendicular.length2 = a.length2 ∧ a.dot a.perpendicular = 0 ∧
    a.cross a.perpendicular = a.length2 ∧ 0 ≤ a.length2 ∧ (a.length2 = 0 ↔ a = null) ∧
    a.cross b = -(b.cross a) ∧ a.cross (b + c) = a.cross b + a.cross c ∧
    a.cross (b.smul k) = k * a.cross b ∧ a.dot b = b.dot a ∧ a.dot (b + c) = a.dot b + a.dot c ∧
    a.dot (b.smul k) = k * a.dot b ∧ a.dot a = a.length2 ∧
    a.cross b = a.perpendicular.dot b ∧
    a.dot b ^ 2 + a.cross b ^ 2 = a.length2 * b.length2 ∧
    a.perpendicular.perpendicular = -a ∧
    a.perpendicular.perpendicular.perpendicular.perpendicular = a := by
  refine ⟨?_, ?_, ?_, length2_nonneg a, length2_eq_zero, ?_, ?_, ?_, ?_, ?_, ?_, ?_, ?_, ?_, ?_, ?_⟩
  any_goals (simp [dot, cross, length2]; try ring)
  all_goals (ext <;> simp)

/-- **C05** project: the orthogonal projection on the line of `v`. -/
theorem C05_project (eps : K) (v w : Vec2 K) :
    (v.length2 > eps * eps → ∃ q, v.project eps w = .ok q ∧ (∃ k, q = v.smul k) ∧
      v.dot (w - q) = 0 ∧ (∀ k, (w - q).length2 ≤ (w - v.smul k).length2) ∧
      v.project eps q = .ok q) ∧
    (v.length2 ≤ eps * eps → v.project eps w = .ok null) := by
  constructor
  · intro h
    have hpos : 0 < v.length2 := lt_of_le_of_lt (mul_self_nonneg eps) h
    have hne := hpos.ne'
    have hq : ∀ u, v.project eps u = .ok (v.smul (v.dot u / v.length2)) := by
      intro u
      have : v.length2 > eps2 eps := h
      simp [project, this, pydiv_ok hne]; rfl
    have hn : v.x ^ 2 + v.y ^ 2 ≠ 0 := by have := hne; simp only [length2] at this; simpa [sq] using this
    refine ⟨_, hq w, ⟨_, rfl⟩, ?_, ?_, ?_⟩
    · simp [dot, length2]; field_simp; ring
    · intro k
      have : (w - v.smul k).length2 - (w - v.smul (v.dot w / v.length2)).length2
          = v.length2 * (k - v.dot w / v.length2) ^ 2 := by
        simp [dot, length2]; field_simp; ring
      nlinarith [mul_nonneg hpos.le (sq_nonneg (k - v.dot w / v.length2))]
    · rw [hq]
      congr 2
      simp [dot, length2]; field_simp
  · intro h
    have : ¬ v.length2 > eps2 eps := not_lt.mpr h
    simp [project, this]

example : (⟨3, 4⟩ : Vec2 ℚ).project (1/100000) ⟨10, 5⟩ = .ok ⟨6, 8⟩ := by
  simp [project, eps2, pydiv, dot, length2]
  norm_num
example : (⟨3, 4⟩ : Vec2 ℚ).length2 > (1/100000) * (1/100000) := by norm_num [length2]

/-- **C06** reflect. -/
theorem C06_reflect (eps : K) (v m : Vec2 K) (h : m.length2 > eps * eps) :
    ∃ r, v.reflect eps m = .ok r ∧ r.reflect eps m = .ok v ∧ r.length2 = v.length2 ∧
      ((∃ k, v = m.smul k) → r = v) ∧ (v.dot m = 0 → r = -v) ∧
      (∃ k, v + r = m.smul k) := by
  have hpos : 0 < m.length2 := lt_of_le_of_lt (mul_self_nonneg eps) h
  have hn : m.x * m.x + m.y * m.y ≠ 0 := hpos.ne'
  have hgt : m.x * m.x + m.y * m.y > eps2 eps := h
  have hn2 : m.x ^ 2 + m.y ^ 2 ≠ 0 := by simpa [sq] using hn
  have hr : ∀ u : Vec2 K, u.reflect eps m = .ok
      ⟨m.x * ((1 + 1) * (u.x * m.x + u.y * m.y) / (m.x * m.x + m.y * m.y)) - u.x,
       m.y * ((1 + 1) * (u.x * m.x + u.y * m.y) / (m.x * m.x + m.y * m.y)) - u.y⟩ := by
    intro u
    simp [reflect, hgt, pydiv_ok hn]
  refine ⟨_, hr v, ?_, ?_, ?_, ?_, ?_⟩
  · rw [hr]; congr 1; ext <;> simp <;> field_simp <;> ring
  · simp [length2]; field_simp; ring
  · rintro ⟨k, rfl⟩
    ext <;> simp <;> field_simp <;> ring
  · intro hd
    have hd' : v.x * m.x + v.y * m.y = 0 := hd
    ext <;> simp [hd']
  · refine ⟨(1 + 1) * (v.x * m.x + v.y * m.y) / (m.x * m.x + m.y * m.y), ?_⟩
    ext <;> simp

example : (⟨1, 0⟩ : Vec2 ℚ).length2 > (1/100000) * (1/100000) ∧
    (⟨2, 3⟩ : Vec2 ℚ).reflect (1/100000) ⟨1, 0⟩ = .ok ⟨2, -3⟩ := by
  refine ⟨by norm_num [length2], ?_⟩
  simp [reflect, eps2, pydiv]
  norm_num

/-- **C07** the order operators are the total preorder by squared length. -/
theorem C07_order (a b c : Vec2 K) :
    (a.le b = true ∨ b.le a = true) ∧ (a.le b = true → b.le c = true → a.le c = true) ∧
    a.le a = true ∧ (a.lt b = true ↔ a.ge b = false) ∧ (a.gt b = b.lt a) ∧ (a.ge b = b.le a) ∧
    (a.lt b = true ↔ a.length2 < b.length2) ∧ (a.le b = true ↔ a.length2 ≤ b.length2) := by
  simp only [le, lt, ge, gt, decide_eq_true_eq, decide_eq_false_iff_not, not_le, gt_iff_lt, ge_iff_le,
    iff_self, le_refl, and_true]
  exact ⟨le_total _ _, le_trans⟩

/-- **C07** `==` against any sequence of numbers: exactly the sequences `[x, y]`; `!=` is its
negation. -/
theorem C07_eq_ne (v : Vec2 K) (o : List K) :
    (v.eqSeq o = true ↔ o = [v.x, v.y]) ∧ v.neSeq o = !(v.eqSeq o) := by
  rcases o with _ | ⟨a, _ | ⟨b, _ | ⟨c, o⟩⟩⟩
  · simp [eqSeq, neSeq]
  · simp [eqSeq, neSeq]
  · simp only [eqSeq, neSeq, List.length_cons, List.length_nil]
    constructor
    · simp; tauto
    · simp [bne]
  · simp [eqSeq, neSeq]

/-- **C10** lerp. -/
theorem C10_lerp (a b : Vec2 K) (t : K) :
    a.lerp b 0 = a ∧ a.lerp b 1 = b ∧ a.lerp b t = b.lerp a (1 - t) ∧
    a.lerp b t - a = (b - a).smul t := by
  refine ⟨?_, ?_, ?_, ?_⟩ <;> ext <;> simp [lerp] <;> ring

end Field

/-- **C10** for `t` in [0,1] the result is on the segment: the distances add up. -/
theorem C10_lerp_between (a b : Vec2 ℝ) (t : ℝ) (h0 : 0 ≤ t) (h1 : t ≤ 1) :
    (a.lerp b t).distanceTo a + (a.lerp b t).distanceTo b = a.distanceTo b := by
  have e1 : a.lerp b t - a = (b - a).smul t := (C10_lerp a b t).2.2.2
  have e2 : a.lerp b t - b = (b - a).smul (-(1 - t)) := by ext <;> simp [lerp] <;> ring
  have e3 : a - b = (b - a).smul (-1) := by ext <;> simp
  rw [distanceTo_eq_length, distanceTo_eq_length, distanceTo_eq_length, e1, e2, e3,
    length_smul, length_smul, length_smul, abs_neg, abs_neg, abs_of_nonneg h0,
    abs_of_nonneg (by linarith)]
  simp; ring

/-- **C03** normalized. -/
theorem C03_normalized (eps : ℝ) (heps : 0 ≤ eps) (v : Vec2 ℝ) :
    (v.length > eps → ∃ u, v.normalized eps = .ok u ∧ u.length = 1 ∧ u.smul v.length = v) ∧
    (v.length ≤ eps → v.normalized eps = .ok null) := by
  constructor
  · intro h
    have hpos : 0 < v.length := lt_of_le_of_lt heps h
    refine ⟨⟨v.x / v.length, v.y / v.length⟩, ?_, ?_, ?_⟩
    · simp [normalized, h, pydiv_ok hpos.ne']; rfl
    · rw [length_eq_iff zero_le_one]
      have := length_mul_self v
      simp only [length2] at *
      field_simp
      linarith
    · ext <;> simp <;> field_simp
  · intro h
    simp [normalized, not_lt.mpr h]

example : (⟨3, 4⟩ : Vec2 ℝ).length > 1/100000 := by
  rw [gt_iff_lt, lt_length_iff (by norm_num)]; norm_num [length2]

/-- **C04** scaled_to. -/
theorem C04_scaled_to (eps : ℝ) (heps : 0 ≤ eps) (v : Vec2 ℝ) (L : ℝ) :
    (v.length > eps → ∃ u, v.scaledTo eps L = .ok u ∧ u.length = |L| ∧ u.smul v.length = v.smul L) ∧
    (v.length ≤ eps → v.scaledTo eps L = .ok null) := by
  constructor
  · intro h
    have hpos : 0 < v.length := lt_of_le_of_lt heps h
    refine ⟨v.smul (L / v.length), ?_, ?_, ?_⟩
    · simp [scaledTo, h, pydiv_ok hpos.ne']; rfl
    · rw [length_smul, abs_div, abs_of_pos hpos]; field_simp
    · ext <;> simp <;> field_simp
  · intro h
    simp [scaledTo, not_lt.mpr h]

/-- Over the real numbers squares do not overflow. -/
theorem clamped_real (eps : ℝ) (v : Vec2 ℝ) (lo hi : Option ℝ) : v.clamped eps lo hi =
    if (match lo, hi with | some l, some h => decide (l > h) | _, _ => false) then .error .valueError
    else if (match lo with | some l => decide (v.length2 < l * l) | none => false) then v.scaledTo eps (lo.getD 0)
    else if (match hi with | some h => decide (v.length2 > h * h) | none => false) then v.scaledTo eps (hi.getD 0)
    else .ok v := by
  cases lo <;> cases hi <;> rfl

/-- **C04** clamped raises ValueError exactly when both bounds are given in the wrong order. -/
theorem C04_clamped_error (eps : ℝ) (heps : 0 ≤ eps) (v : Vec2 ℝ) (lo hi : Option ℝ) :
    ((∃ e, v.clamped eps lo hi = .error e) ↔ ∃ l h, lo = some l ∧ hi = some h ∧ h < l) ∧
    (∀ e, v.clamped eps lo hi = .error e → e = .valueError) := by
  have hs : ∀ L e, v.scaledTo eps L ≠ .error e := by
    intro L e
    rcases lt_or_ge eps v.length with h | h
    · obtain ⟨u, hu, -⟩ := (C04_scaled_to eps heps v L).1 h
      simp [hu]
    · simp [(C04_scaled_to eps heps v L).2 h]
  rcases lo with _ | l <;> rcases hi with _ | h <;> simp only [clamped_real]
  · simp
  · simp only [Bool.false_eq_true, if_false]
    split <;> simp_all
  · simp; split <;> simp_all
  · by_cases hb : l > h
    · simp [hb]
    · simp only [hb, decide_false, Bool.false_eq_true, if_false]
      constructor
      · constructor
        · rintro ⟨e, he⟩
          split at he
          · simp_all
          · split at he <;> simp_all
        · rintro ⟨l', h', e1, e2, hlt⟩
          simp only [Option.some.injEq] at e1 e2
          subst e1 e2; exact absurd hlt hb
      · intro e he
        split at he
        · simp_all
        · split at he <;> simp_all

/-- The vector `u` points the way `v` does: a non-negative multiple. -/
def SameWay (u v : Vec2 ℝ) : Prop := ∃ k, 0 ≤ k ∧ u = v.smul k

/-- **C04** clamped with bounds `0 ≤ lo ≤ hi`: the length is in the range (unless `v` is null within EPSILON), the vector
is kept when it already fits, and the direction never changes. -/
theorem C04_clamped (eps : ℝ) (heps : 0 ≤ eps) (v : Vec2 ℝ) (lo hi : ℝ) (h0 : 0 ≤ lo) (h1 : lo ≤ hi) :
    ∃ u, v.clamped eps (some lo) (some hi) = .ok u ∧ SameWay u v ∧
      (lo ≤ v.length → v.length ≤ hi → u = v) ∧
      (v.length > eps → lo ≤ u.length ∧ u.length ≤ hi) ∧
      (v.length ≤ eps → u = v ∨ u = null) := by
  have hb : ¬ lo > hi := not_lt.mpr h1
  have key : ∀ L, 0 ≤ L → ∃ u, v.scaledTo eps L = .ok u ∧ SameWay u v ∧
      (v.length > eps → u.length = L) ∧ (v.length ≤ eps → u = null) := by
    intro L hL
    rcases lt_or_ge eps v.length with h | h
    · have hpos : 0 < v.length := lt_of_le_of_lt heps h
      refine ⟨v.smul (L / v.length), ?_, ⟨_, div_nonneg hL hpos.le, rfl⟩, ?_, ?_⟩
      · simp [scaledTo, h, pydiv_ok hpos.ne']; rfl
      · intro _; rw [length_smul, abs_of_nonneg (div_nonneg hL hpos.le)]; field_simp
      · intro h'; exact absurd h (not_lt.mpr h')
    · refine ⟨null, (C04_scaled_to eps heps v L).2 h, ⟨0, le_rfl, ?_⟩, ?_, fun _ => rfl⟩
      · ext <;> simp
      · intro h'; exact absurd h (not_le.mpr h')
  simp only [clamped_real, hb, decide_false, Bool.false_eq_true, if_false, decide_eq_true_eq,
    Option.getD_some]
  by_cases hlo : v.length2 < lo * lo
  · obtain ⟨u, hu, hs, hl, hn⟩ := key lo h0
    have hlt : v.length < lo := (length_lt_iff h0).mpr hlo
    refine ⟨u, by simpa [hlo] using hu, hs, fun h => absurd hlt (not_lt.mpr h), ?_, ?_⟩
    · intro h; rw [hl h]; exact ⟨le_rfl, h1⟩
    · intro h; exact Or.inr (hn h)
  · have hle : lo ≤ v.length := (le_length_iff h0).mpr (not_lt.mp hlo)
    by_cases hhi : v.length2 > hi * hi
    · obtain ⟨u, hu, hs, hl, hn⟩ := key hi (h0.trans h1)
      have hlt : hi < v.length := (lt_length_iff (h0.trans h1)).mpr hhi
      refine ⟨u, by simpa [hlo, hhi] using hu, hs, fun _ h => absurd hlt (not_lt.mpr h), ?_, ?_⟩
      · intro h; rw [hl h]; exact ⟨h1, le_rfl⟩
      · intro h; exact Or.inr (hn h)
    · have hle' : v.length ≤ hi := (length_le_iff (h0.trans h1)).mpr (not_lt.mp hhi)
      refine ⟨v, by simp [hlo, hhi], ⟨1, zero_le_one, by ext <;> simp⟩, fun _ _ => rfl,
        fun _ => ⟨hle, hle'⟩, fun _ => Or.inl rfl⟩

/-- **C04** one bound only. -/
theorem C04_clamped_one_bound (eps : ℝ) (heps : 0 ≤ eps) (v : Vec2 ℝ) (b : ℝ) (hb : 0 ≤ b)
    (hv : v.length > eps) :
    (∃ u, v.clamped eps (some b) none = .ok u ∧ SameWay u v ∧ u.length = max v.length b) ∧
    (∃ u, v.clamped eps none (some b) = .ok u ∧ SameWay u v ∧ u.length = min v.length b) ∧
    v.clamped eps none none = .ok v := by
  have hpos : 0 < v.length := lt_of_le_of_lt heps hv
  have key : v.scaledTo eps b = .ok (v.smul (b / v.length)) := by
    simp [scaledTo, hv, pydiv_ok hpos.ne']; rfl
  have klen : (v.smul (b / v.length)).length = b := by
    rw [length_smul, abs_of_nonneg (div_nonneg hb hpos.le)]; field_simp
  have same : SameWay v v := ⟨1, zero_le_one, by ext <;> simp⟩
  have sameS : SameWay (v.smul (b / v.length)) v := ⟨_, div_nonneg hb hpos.le, rfl⟩
  refine ⟨?_, ?_, by simp [clamped_real]⟩
  · by_cases h : v.length2 < b * b
    · refine ⟨_, by simpa [clamped_real, h] using key, sameS, ?_⟩
      rw [klen, max_eq_right ((length_lt_iff hb).mpr h).le]
    · refine ⟨v, by simp [clamped_real, h], same, ?_⟩
      rw [max_eq_left ((le_length_iff hb).mpr (not_lt.mp h))]
  · by_cases h : v.length2 > b * b
    · refine ⟨_, by simpa [clamped_real, h] using key, sameS, ?_⟩
      rw [klen, min_eq_right ((lt_length_iff hb).mpr h).le]
    · refine ⟨v, by simp [clamped_real, h], same, ?_⟩
      rw [min_eq_left ((length_le_iff hb).mpr (not_lt.mp h))]

/-- **C04** the documented direction is lost for a negative minimum: `Vec2(1,0).clamped(-3)`... the bound is squared, so a
vector shorter than 3 is turned around. -/
theorem C04_negative_min_flips :
    (⟨1, 0⟩ : Vec2 ℝ).clamped (1/100000) (some (-3)) none = .ok ⟨-3, 0⟩ := by
  have h1 : (⟨1, 0⟩ : Vec2 ℝ).length = 1 := by rw [length_eq_iff zero_le_one]; simp [length2]
  have h2 : (⟨1, 0⟩ : Vec2 ℝ).length2 < -3 * -3 := by norm_num [length2]
  have h3 : (100000:ℝ)⁻¹ < 1 := by norm_num
  have h4 : (⟨1, 0⟩ : Vec2 ℝ).scaledTo (1/100000) (-3) = .ok ⟨-3, 0⟩ := by
    simp [scaledTo, h1, pydiv, h3]
  simp only [clamped_real, decide_eq_true_eq, Bool.false_eq_true, if_false, if_pos h2, Option.getD_some, h4]

section Tol
variable {K : Type} [Field K] [LinearOrder K] [IsStrictOrderedRing K]

/-- **C11** the tolerance relation on vectors: reflexive for EPSILON ≠ 0, never true for EPSILON = 0, symmetric, implied
by equality. -/
theorem C11_vec2 (eps : K) (a b : Vec2 K) :
    (eps ≠ 0 → a.almostEquals eps a = true) ∧ a.almostEquals 0 b = false ∧
    a.almostEquals eps b = b.almostEquals eps a ∧ (eps ≠ 0 → a = b → a.almostEquals eps b = true) := by
  have hr : eps ≠ 0 → a.almostEquals eps a = true := by
    intro h
    have : 0 < eps * eps := mul_self_pos.mpr h
    simp [almostEquals, eps2, this]
  refine ⟨hr, ?_, ?_, ?_⟩
  · simp only [almostEquals, eps2, mul_zero, decide_eq_false_iff_not, not_lt]
    nlinarith [mul_self_nonneg (a.x - b.x), mul_self_nonneg (a.y - b.y)]
  · simp only [almostEquals]
    congr 2; ring
  · rintro h rfl; exact hr h
end Tol

/-- **C11** for vectors: almost equal iff the distance is below EPSILON. -/
theorem C11_vec2_distance (eps : ℝ) (heps : 0 ≤ eps) (a b : Vec2 ℝ) :
    a.almostEquals eps b = true ↔ a.distanceTo b < eps := by
  rw [distanceTo_eq_length, length_lt_iff heps]
  simp only [almostEquals, decide_eq_true_eq, length2, sub_x, sub_y]

end Planar
