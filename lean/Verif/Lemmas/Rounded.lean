import Verif.Spec.Rounded
import Verif.Model.Affine
/- First consequences of the laws of rounded arithmetic. -/
set_option linter.unusedSectionVars false
namespace Planar
open Spec
variable {K : Type} [LinearOrder K] [Add K] [Sub K] [Mul K] [Div K] [Neg K] [Zero K] [One K] [RoundedArith K]

theorem f_add_comm : ∀ a b : K, a + b = b + a := RoundedArith.add_comm
theorem f_add_zero : ∀ a : K, a + 0 = a := RoundedArith.add_zero
theorem f_mul_comm : ∀ a b : K, a * b = b * a := RoundedArith.mul_comm
theorem f_mul_one : ∀ a : K, a * 1 = a := RoundedArith.mul_one
theorem f_mul_zero : ∀ a : K, a * 0 = 0 := RoundedArith.mul_zero
theorem f_div_one : ∀ a : K, a / 1 = a := RoundedArith.div_one
theorem f_neg_neg : ∀ a : K, -(-a) = a := RoundedArith.neg_neg
theorem f_sub_def : ∀ a b : K, a - b = a + -b := RoundedArith.sub_def
theorem f_neg_add : ∀ a b : K, -(a + b) = -a + -b := RoundedArith.neg_add
theorem f_neg_mul : ∀ a b : K, -(a * b) = -a * b := RoundedArith.neg_mul
theorem f_sub_self : ∀ a : K, a - a = 0 := RoundedArith.sub_self
theorem f_eq_of_sub : ∀ a b : K, a - b = 0 → a = b := RoundedArith.eq_of_sub
theorem f_neg_le : ∀ a b : K, a ≤ b → -b ≤ -a := RoundedArith.neg_le
theorem f_add_le : ∀ a b c : K, b ≤ c → a + b ≤ a + c := RoundedArith.add_le
theorem f_mul_le : ∀ a b c : K, 0 ≤ a → b ≤ c → a * b ≤ a * c := RoundedArith.mul_le
theorem f_div_le : ∀ a b c : K, 0 < c → a ≤ b → a / c ≤ b / c := RoundedArith.div_le
theorem f_zero_lt_one : (0 : K) < 1 := RoundedArith.zero_lt_one

theorem f_zero_add (a : K) : 0 + a = a := by rw [f_add_comm, f_add_zero]
theorem f_one_mul (a : K) : 1 * a = a := by rw [f_mul_comm, f_mul_one]
theorem f_zero_mul (a : K) : 0 * a = 0 := by rw [f_mul_comm, f_mul_zero]
theorem f_neg_zero : -(0 : K) = 0 := by
  have := f_sub_self (0 : K)
  rwa [f_sub_def, f_zero_add] at this
theorem f_sub_zero (a : K) : a - 0 = a := by rw [f_sub_def, f_neg_zero, f_add_zero]
theorem f_zero_sub (a : K) : 0 - a = -a := by rw [f_sub_def, f_zero_add]
theorem f_neg_sub (a b : K) : -(a - b) = b - a := by rw [f_sub_def, f_neg_add, f_neg_neg, f_add_comm, f_sub_def]
theorem f_mul_neg (a b : K) : a * -b = -(a * b) := by rw [f_mul_comm, ← f_neg_mul, f_mul_comm]
theorem f_neg_mul_neg (a b : K) : -a * -b = a * b := by rw [f_mul_neg, ← f_neg_mul, f_neg_neg]
theorem f_sub_nonneg {a b : K} (h : a ≤ b) : 0 ≤ b - a := by
  have := f_add_le b (-b) (-a) (f_neg_le a b h)
  rwa [← f_sub_def, f_sub_self, ← f_sub_def] at this
theorem f_sub_pos {a b : K} (h : a < b) : 0 < b - a := by
  refine lt_of_le_of_ne (f_sub_nonneg h.le) fun hc => ?_
  exact h.ne' (f_eq_of_sub b a hc.symm)
theorem f_neg_nonneg {a : K} (h : a ≤ 0) : 0 ≤ -a := by have := f_neg_le a 0 h; rwa [f_neg_zero] at this
theorem f_neg_nonpos {a : K} (h : 0 ≤ a) : -a ≤ 0 := by have := f_neg_le 0 a h; rwa [f_neg_zero] at this
theorem f_sub_nonpos {a b : K} (h : a ≤ b) : a - b ≤ 0 := by
  rw [← f_neg_sub]; exact f_neg_nonpos (f_sub_nonneg h)
theorem f_add_le_add {a b c d : K} (h : a ≤ b) (h' : c ≤ d) : a + c ≤ b + d :=
  le_trans (f_add_le a c d h') (by rw [f_add_comm a, f_add_comm b]; exact f_add_le d a b h)
theorem f_mul_nonneg {a b : K} (h : 0 ≤ a) (h' : 0 ≤ b) : 0 ≤ a * b := by
  have := f_mul_le a 0 b h h'; rwa [f_mul_zero] at this
theorem f_mul_self_nonneg (a : K) : 0 ≤ a * a := by
  rcases le_total 0 a with h | h
  · exact f_mul_nonneg h h
  · rw [← f_neg_mul_neg]; exact f_mul_nonneg (f_neg_nonneg h) (f_neg_nonneg h)
theorem f_mul_nonpos {a b : K} (h : 0 ≤ a) (h' : b ≤ 0) : a * b ≤ 0 := by
  have := f_mul_le a b 0 h h'; rwa [f_mul_zero] at this
theorem f_add_nonneg {a b : K} (h : 0 ≤ a) (h' : 0 ≤ b) : 0 ≤ a + b := by
  have := f_add_le_add h h'; rwa [f_add_zero] at this

@[simp] theorem Vec2.mk'_fl (x y : K) : Vec2.mk' x y = ⟨x, y⟩ := by unfold Vec2.mk'; rw [f_mul_one, f_mul_one]
@[simp] theorem Vec2.copy_fl (v : Vec2 K) : v.copy = v := by unfold Vec2.copy; rw [Vec2.mk'_fl]

@[simp] theorem Affine.identity_fl (v : Vec2 K) : (Affine.identity : Affine K).apply v = v := by
  unfold Affine.apply Affine.identity Affine.mk'
  simp only [f_mul_one, f_mul_zero, f_add_zero, f_zero_add, Vec2.mk'_fl]

end Planar
