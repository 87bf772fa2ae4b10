import Verif.Props.Vec
import Verif.Props.Affine
/-
More of C01-C03, C11, C16, C18: floor division, `length`, `abs`, `is_null`, `bool`, `column_vectors`, `is_identity`.
-/
set_option linter.unusedSectionVars false
namespace Planar
open Vec2

/-- **C01** floor division: componentwise, rounding towards minus infinity, ZeroDivisionError exactly for a zero
divisor; `q` is the result exactly if `q*k ≤ v < (q+1)*k` (with the signs turned for `k < 0`). -/
theorem C01_floordiv (v w : Vec2 ℝ) (k : ℝ) :
    (k ≠ 0 → v.sfdiv k = .ok ⟨(⌊v.x / k⌋ : ℝ), (⌊v.y / k⌋ : ℝ)⟩) ∧ (k = 0 → v.sfdiv k = .error .zeroDivisionError) ∧
    ((w.x ≠ 0 ∧ w.y ≠ 0) → v.vfdiv w = .ok ⟨(⌊v.x / w.x⌋ : ℝ), (⌊v.y / w.y⌋ : ℝ)⟩) ∧
    ((w.x = 0 ∨ w.y = 0) → v.vfdiv w = .error .zeroDivisionError) ∧
    ((w.x ≠ 0 ∧ w.y ≠ 0) → w.rsfdiv k = .ok ⟨(⌊k / w.x⌋ : ℝ), (⌊k / w.y⌋ : ℝ)⟩) ∧
    ((w.x = 0 ∨ w.y = 0) → w.rsfdiv k = .error .zeroDivisionError) := by
  refine ⟨?_, ?_, ?_, ?_, ?_, ?_⟩
  · intro h; simp only [sfdiv, pyfdiv, beq_iff_eq, h, if_false]; rfl
  · rintro rfl; simp only [sfdiv, pyfdiv, beq_self_eq_true, if_true]; rfl
  · rintro ⟨h, h'⟩; simp only [vfdiv, pyfdiv, beq_iff_eq, h, h', if_false]; rfl
  · intro h
    by_cases hx : w.x = 0
    · simp only [vfdiv, pyfdiv, beq_iff_eq, hx, if_true]; rfl
    · have hy : w.y = 0 := by tauto
      simp only [vfdiv, pyfdiv, beq_iff_eq, hx, hy, if_false, if_true]; rfl
  · rintro ⟨h, h'⟩; simp only [rsfdiv, pyfdiv, beq_iff_eq, h, h', if_false]; rfl
  · intro h
    by_cases hx : w.x = 0
    · simp only [rsfdiv, pyfdiv, beq_iff_eq, hx, if_true]; rfl
    · have hy : w.y = 0 := by tauto
      simp only [rsfdiv, pyfdiv, beq_iff_eq, hx, hy, if_false, if_true]; rfl

/-- Witness: `Vec2(7, -7) // 2` is `Vec2(3, -4)`. -/
example : (⟨7, -7⟩ : Vec2 ℝ).sfdiv 2 = .ok ⟨3, -4⟩ := by
  rw [(C01_floordiv ⟨7, -7⟩ ⟨1, 1⟩ 2).1 (by norm_num)]
  have h1 : ⌊(7 : ℝ) / 2⌋ = 3 := by rw [Int.floor_eq_iff]; norm_num
  have h2 : ⌊(-7 : ℝ) / 2⌋ = -4 := by rw [Int.floor_eq_iff]; norm_num
  simp [h1, h2]

/-- **C02** `length`, `abs` and `distance_to`: the Euclidean length; a metric. -/
theorem C02_length (a b c : Vec2 ℝ) (k : ℝ) :
    0 ≤ a.length ∧ a.length ^ 2 = a.x ^ 2 + a.y ^ 2 ∧ a.abs = a.length ∧ (a.length = 0 ↔ a = null) ∧
    (a.smul k).length = |k| * a.length ∧ (-a).length = a.length ∧ a.distanceTo b = (a - b).length ∧
    a.distanceTo b = b.distanceTo a ∧ (a.distanceTo b = 0 ↔ a = b) ∧
    a.distanceTo c ≤ a.distanceTo b + b.distanceTo c ∧ (a + b).length ≤ a.length + b.length ∧
    |a.dot b| ≤ a.length * b.length := by
  have hcs : ∀ a b : Vec2 ℝ, |a.dot b| ≤ a.length * b.length := by
    intro a b
    apply abs_le_of_sq_le_sq
    · have h1 := length_mul_self a; have h2 := length_mul_self b
      have : (a.length * b.length) ^ 2 = a.length2 * b.length2 := by rw [← h1, ← h2]; ring
      rw [this]; simp only [Vec2.dot, Vec2.length2]
      nlinarith [sq_nonneg (a.x * b.y - a.y * b.x)]
    · exact mul_nonneg (length_nonneg _) (length_nonneg _)
  have htri : ∀ a b : Vec2 ℝ, (a + b).length ≤ a.length + b.length := by
    intro a b
    rw [length_le_iff (add_nonneg (length_nonneg _) (length_nonneg _))]
    have h1 := length_mul_self a; have h2 := length_mul_self b
    have h3 := (abs_le.mp (hcs a b)).2
    have : (a + b).length2 = a.length2 + b.length2 + 2 * a.dot b := by
      simp [Vec2.length2, Vec2.dot]; ring
    rw [this]; nlinarith
  refine ⟨length_nonneg a, ?_, rfl, length_eq_zero, length_smul a k, ?_, rfl, ?_, ?_, ?_, htri a b, hcs a b⟩
  · rw [sq, length_mul_self]; simp only [Vec2.length2]; ring
  · rw [length_eq, length_eq]; simp
  · rw [distanceTo_eq, distanceTo_eq]; congr 1; ring
  · rw [distanceTo_eq_length, length_eq_zero]
    constructor
    · intro h; have hx := congrArg Vec2.x h; have hy := congrArg Vec2.y h
      simp at hx hy; ext <;> linarith
    · rintro rfl; ext <;> simp
  · have h := htri (a - b) (b - c)
    have e : a - b + (b - c) = a - c := by ext <;> simp
    rw [e] at h; exact h

example : (⟨3, 4⟩ : Vec2 ℝ).length = 5 := by
  rw [length_eq_iff (by norm_num)]; norm_num [Vec2.length2]

/-- **C03** `is_null` is "shorter than EPSILON"; `bool(v)` is "not exactly the null vector". -/
theorem C03_is_null (eps : ℝ) (heps : 0 ≤ eps) (v : Vec2 ℝ) :
    (v.isNull eps = true ↔ v.length < eps) ∧ (v.truthy = true ↔ v ≠ null) := by
  constructor
  · rw [length_lt_iff heps]; simp [isNull]
  · simp only [truthy, Bool.or_eq_true, bne_iff_ne, ne_eq]
    rw [Vec2.ext_iff']; simp; tauto

section Field
variable {K : Type} [Field K] [LinearOrder K] [IsStrictOrderedRing K]

/-- **C16** the three column vectors are where the matrix puts them, and determine the transform. -/
theorem C16_columns (T S : Affine K) :
    T.columnVectors = (⟨T.a, T.d⟩, ⟨T.b, T.e⟩, ⟨T.c, T.f⟩) ∧ (T.columnVectors = S.columnVectors → T = S) ∧
    T.determinant = T.columnVectors.1.cross T.columnVectors.2.1 := by
  refine ⟨by simp [Affine.columnVectors], ?_, by simp [Affine.columnVectors, Affine.determinant, Vec2.cross]; ring⟩
  intro h
  simp [Affine.columnVectors] at h
  ext <;> tauto

/-- **C18** `is_identity`: true exactly when every entry is within EPSILON of the identity's (for the `identity` object
itself always), so for every EPSILON > 0 true of an object that moves no point. -/
theorem C18_identity (eps : K) (T : Affine K) :
    (T.isIdentity eps false = true ↔
      |T.a - 1| < eps ∧ |T.b| < eps ∧ |T.c| < eps ∧ |T.d| < eps ∧ |T.e - 1| < eps ∧ |T.f| < eps) ∧
    T.isIdentity eps true = true ∧
    ((∀ eps > 0, T.isIdentity eps false = true) ↔ ∀ p, T.apply p = p) := by
  have key : ∀ eps : K, (T.isIdentity eps false = true ↔
      |T.a - 1| < eps ∧ |T.b| < eps ∧ |T.c| < eps ∧ |T.d| < eps ∧ |T.e - 1| < eps ∧ |T.f| < eps) := by
    intro eps
    simp only [Affine.isIdentity, Bool.false_or]
    simp [Affine.almostEquals, Affine.identity, Affine.mk']
  refine ⟨key eps, by simp [Affine.isIdentity], ?_⟩
  constructor
  · intro h p
    have z : ∀ x : K, (∀ eps > 0, |x| < eps) → x = 0 := by
      intro x hx
      by_contra hne
      exact lt_irrefl _ (hx |x| (abs_pos.mpr hne))
    have ha : T.a = 1 := sub_eq_zero.mp (z _ fun e he => ((key e).mp (h e he)).1)
    have hb : T.b = 0 := z _ fun e he => ((key e).mp (h e he)).2.1
    have hc : T.c = 0 := z _ fun e he => ((key e).mp (h e he)).2.2.1
    have hd : T.d = 0 := z _ fun e he => ((key e).mp (h e he)).2.2.2.1
    have hE : T.e = 1 := sub_eq_zero.mp (z _ fun e he => ((key e).mp (h e he)).2.2.2.2.1)
    have hf : T.f = 0 := z _ fun e he => ((key e).mp (h e he)).2.2.2.2.2
    ext <;> simp [Affine.apply, ha, hb, hc, hd, hE, hf]
  · intro h e he
    rw [key]
    have h0 := h ⟨0, 0⟩; have h1 := h ⟨1, 0⟩; have h2 := h ⟨0, 1⟩
    simp [Affine.apply, Vec2.ext_iff'] at h0 h1 h2
    have ha : T.a = 1 := by linarith [h0.1, h1.1]
    have hb : T.b = 0 := by linarith [h0.2, h1.2]
    have hd : T.d = 0 := by linarith [h0.1, h2.1]
    have hE : T.e = 1 := by linarith [h0.2, h2.2]
    simp [ha, hb, hd, hE, h0.1, h0.2, he]

end Field

/-- Witness: a translation by a tiny vector is `is_identity` although it is not the identity. -/
example : (Affine.translation (⟨1/1000000, 0⟩ : Vec2 ℚ)).isIdentity (1/100000) false = true := by
  rw [(C18_identity _ _).1]; norm_num [Affine.translation]

end Planar
