import Verif.Props.PolyState
import Verif.Props.Box
import Verif.Props.VecMore
import Verif.Spec.Double
/-
C68: what planar computes exactly in floating point. The theorems are about the same model, run on numbers whose
operations round (Spec/Rounded.lean); `Double` (Spec/Double.lean) is the IEEE format of Python's floats without NaN.
-/
set_option linter.unusedSectionVars false
namespace Planar
open Spec

section Rounded
variable {K : Type} [LinearOrder K] [Add K] [Sub K] [Mul K] [Div K] [Neg K] [Zero K] [One K] [RoundedArith K]

@[ext] theorem Vec2.ext_fl {v w : Vec2 K} (hx : v.x = w.x) (hy : v.y = w.y) : v = w := by
  cases v; cases w; simp_all

/-- **C68** vectors: addition commutes, zero and the identity of scaling change nothing, negation is exact, and the
difference of two vectors is null exactly when they are equal and changes sign when they are swapped. -/
theorem C68_vectors (a b : Vec2 K) :
    a + b = b + a ∧ a + Vec2.null = a ∧ a.smul 1 = a ∧ -(-a) = a ∧ a - b = a + -b ∧
    (a - b = Vec2.null ↔ a = b) ∧ a - b = -(b - a) := by
  refine ⟨?_, ?_, ?_, ?_, ?_, ⟨fun h => ?_, ?_⟩, ?_⟩
  · apply Vec2.ext_fl <;> exact f_add_comm _ _
  · apply Vec2.ext_fl <;> exact f_add_zero _
  · apply Vec2.ext_fl <;> exact f_mul_one _
  · apply Vec2.ext_fl <;> exact f_neg_neg _
  · apply Vec2.ext_fl <;> exact f_sub_def _ _
  · apply Vec2.ext_fl
    · exact f_eq_of_sub _ _ (congrArg Vec2.x h)
    · exact f_eq_of_sub _ _ (congrArg Vec2.y h)
  · rintro rfl; apply Vec2.ext_fl <;> exact f_sub_self _
  · apply Vec2.ext_fl <;> exact (f_neg_sub _ _).symm

/-- **C68** products: the dot product is symmetric, the cross product changes sign when its arguments are swapped (so it
is zero for a vector with itself), a vector and its perpendicular have dot product zero, and squared lengths are never
negative. -/
theorem C68_products (a b : Vec2 K) :
    a.dot b = b.dot a ∧ a.cross b = -b.cross a ∧ a.cross a = 0 ∧ a.dot a.perpendicular = 0 ∧
    a.dot a = a.length2 ∧ 0 ≤ a.length2 ∧ (-a).length2 = a.length2 ∧ a.perpendicular.length2 = a.length2 := by
  refine ⟨?_, ?_, ?_, ?_, rfl, ?_, ?_, ?_⟩
  · change _ * _ + _ * _ = _ * _ + _ * _
    rw [f_mul_comm a.x, f_mul_comm a.y]
  · change _ * _ - _ * _ = -(_ * _ - _ * _)
    rw [f_neg_sub, f_mul_comm a.x, f_mul_comm a.y]
  · change _ * _ - _ * _ = _
    rw [f_mul_comm a.x, f_sub_self]
  · change a.x * -a.y + a.y * a.x = _
    rw [f_mul_neg, f_mul_comm a.x, f_add_comm, ← f_sub_def, f_sub_self]
  · exact f_add_nonneg (f_mul_self_nonneg _) (f_mul_self_nonneg _)
  · change -a.x * -a.x + -a.y * -a.y = _ 
    rw [f_neg_mul_neg, f_neg_mul_neg]; rfl
  · change -a.y * -a.y + a.x * a.x = _
    rw [f_neg_mul_neg, f_add_comm]; rfl

/-- **C68** transforms: the identity is neutral in compositions and moves no point; a translation adds its offset; a
scaling multiplies; all without rounding error other than that of the one addition or multiplication. -/
theorem C68_transforms (T : Affine K) (o v : Vec2 K) (k : K) :
    Affine.identity * T = T ∧ T * Affine.identity = T ∧ Affine.identity.apply v = v ∧
    (Affine.translation o).apply v = v + o ∧ (Affine.scaleV o).apply v = v.vmul o ∧
    (Affine.scaleS k).apply v = v.smul k ∧
    (Affine.translation o).determinant = 1 ∧ (Affine.identity : Affine K).determinant = 1 := by
  have hone : (1 : K) * 1 - 0 * 0 = 1 := by rw [f_mul_one, f_mul_zero, f_sub_zero]
  refine ⟨?_, ?_, Affine.identity_fl v, ?_, ?_, ?_, hone, ?_⟩
  · change Affine.mul _ _ = _
    cases T
    simp only [Affine.mul, Affine.identity, Affine.mk', f_mul_one, f_one_mul, f_zero_mul, f_add_zero, f_zero_add]
  · change Affine.mul _ _ = _
    cases T
    simp only [Affine.mul, Affine.identity, Affine.mk', f_mul_one, f_one_mul, f_mul_zero, f_add_zero, f_zero_add]
  · simp only [Affine.apply, Affine.translation, Vec2.mk'_fl, f_mul_one, f_mul_zero, f_add_zero, f_zero_add]; rfl
  · simp only [Affine.apply, Affine.scaleV, Vec2.mk'_fl, f_mul_one, f_mul_zero, f_add_zero, f_zero_add]; rfl
  · simp only [Affine.apply, Affine.scaleS, Vec2.mk'_fl, f_mul_one, f_mul_zero, f_add_zero, f_zero_add]; rfl
  · simp only [Affine.determinant, Affine.identity, Affine.mk', f_mul_one, f_mul_zero, f_sub_zero]

/-- **C68** interpolation hits both ends exactly. -/
theorem C68_lerp (a b : Vec2 K) : a.lerp b 0 = a ∧ a.lerp b 1 = b := by
  constructor <;> apply Vec2.ext_fl <;>
    simp only [Vec2.lerp, f_sub_zero, f_sub_self, f_mul_one, f_mul_zero, f_add_zero, f_zero_add]

/-- **C68** the tolerance relations are symmetric, and reflexive when EPSILON squared is not zero. -/
theorem C68_tolerance (eps : K) (v w : Vec2 K) (S T : Affine K) (b c : Box K) :
    v.almostEquals eps w = w.almostEquals eps v ∧ S.almostEquals eps T = T.almostEquals eps S ∧
    b.almostEquals eps c = c.almostEquals eps b ∧
    (0 < eps * eps → v.almostEquals eps v = true ∧ b.almostEquals eps b = true) ∧
    (0 < eps → T.almostEquals eps T = true) := by
  have hv : ∀ v w : Vec2 K, v.almostEquals eps w = w.almostEquals eps v := by
    intro v w
    simp only [Vec2.almostEquals]
    rw [← f_neg_sub w.x v.x, ← f_neg_sub w.y v.y, f_neg_mul_neg, f_neg_mul_neg]
  have ha : ∀ a b : K, pyabs (a - b) = pyabs (b - a) := by
    intro a b
    rw [← f_neg_sub a b]
    unfold pyabs
    rcases lt_trichotomy (a - b) 0 with h | h | h
    · have h1 : ¬ (-(a - b) < 0) := not_lt.mpr (f_neg_nonneg h.le)
      simp only [h, h1, if_true, if_false]
    · simp only [h, f_neg_zero]
    · have h0 : ¬ (a - b < 0) := not_lt.mpr h.le
      have h1 : -(a - b) < 0 := lt_of_le_of_ne (f_neg_nonpos h.le) fun e => by
        rw [← f_neg_neg (a - b), e, f_neg_zero] at h; exact lt_irrefl _ h
      simp only [h0, h1, if_true, if_false, f_neg_neg]
  have hr : 0 < eps * eps → ∀ v : Vec2 K, v.almostEquals eps v = true := by
    intro h v
    simp only [Vec2.almostEquals, f_sub_self, f_mul_zero, f_add_zero, eps2, decide_eq_true_eq]
    exact h
  refine ⟨hv v w, ?_, ?_, fun h => ⟨hr h v, ?_⟩, ?_⟩
  · simp only [Affine.almostEquals, ha]
  · simp only [Box.almostEquals, hv]
  · simp only [Box.almostEquals, hr h, Bool.and_self]
  · intro h
    have : ¬ (pyabs (0 : K) ≥ eps) := by
      unfold pyabs; simp only [lt_irrefl, if_false]; exact not_le.mpr h
    simp only [Affine.almostEquals, f_sub_self, this, if_false]

end Rounded

/-! ### Doubles -/

private def d (x : ℚ) : Double := Fl.round double x

/-- What is not exact: adding the same vectors in another order, or undoing a translation, can give other vectors. -/
theorem C68_rounding_visible :
    ((⟨d (1 / 10), 0⟩ : Vec2 Double) + ⟨d (2 / 10), 0⟩ + ⟨d (3 / 10), 0⟩ ≠ ⟨d (1 / 10), 0⟩ + (⟨d (2 / 10), 0⟩ + ⟨d (3 / 10), 0⟩)) ∧
    (Affine.translation (⟨-d 1, 0⟩ : Vec2 Double)).apply ((Affine.translation ⟨d 1, 0⟩).apply ⟨d (1 / 10), 0⟩) ≠
      ⟨d (1 / 10), 0⟩ := by
  constructor
  · intro h
    have : ((⟨d (1 / 10), 0⟩ : Vec2 Double) + ⟨d (2 / 10), 0⟩ + ⟨d (3 / 10), 0⟩).x =
      ((⟨d (1 / 10), 0⟩ : Vec2 Double) + (⟨d (2 / 10), 0⟩ + ⟨d (3 / 10), 0⟩)).x := congrArg Vec2.x h
    revert this; decide +kernel
  · intro h
    have := congrArg Vec2.x h
    revert this; decide +kernel

end Planar
