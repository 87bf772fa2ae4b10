import Verif.Model.Real
import Verif.Lemmas.Basic
/- Facts about lengths and trigonometry at the real numbers. -/
set_option linter.unusedSectionVars false
namespace Planar
open Real

theorem length_eq (v : Vec2 ℝ) : v.length = √(v.x * v.x + v.y * v.y) := rfl
theorem length_eq' (v : Vec2 ℝ) : v.length = √v.length2 := rfl
theorem distanceTo_eq (v w : Vec2 ℝ) :
    v.distanceTo w = √((v.x - w.x) * (v.x - w.x) + (v.y - w.y) * (v.y - w.y)) := rfl

theorem distanceTo_eq_length (v w : Vec2 ℝ) : v.distanceTo w = (v - w).length := rfl

theorem length_nonneg (v : Vec2 ℝ) : 0 ≤ v.length := sqrt_nonneg _

theorem length_mul_self (v : Vec2 ℝ) : v.length * v.length = v.length2 :=
  mul_self_sqrt (length2_nonneg v)

theorem length_eq_iff {v : Vec2 ℝ} {L : ℝ} (hL : 0 ≤ L) : v.length = L ↔ v.length2 = L * L := by
  constructor
  · rintro rfl; exact (length_mul_self v).symm
  · intro h; rw [length_eq', h, sqrt_mul_self hL]

theorem length_eq_zero {v : Vec2 ℝ} : v.length = 0 ↔ v = Vec2.null := by
  rw [length_eq_iff le_rfl, mul_zero, length2_eq_zero]

theorem length_pos {v : Vec2 ℝ} (h : v ≠ Vec2.null) : 0 < v.length :=
  sqrt_pos.mpr (length2_pos h)

theorem length_le_iff {v : Vec2 ℝ} {L : ℝ} (hL : 0 ≤ L) : v.length ≤ L ↔ v.length2 ≤ L * L := by
  rw [length_eq', sqrt_le_left hL, sq]

theorem le_length_iff {v : Vec2 ℝ} {L : ℝ} (hL : 0 ≤ L) : L ≤ v.length ↔ L * L ≤ v.length2 := by
  rw [length_eq', le_sqrt hL (length2_nonneg v), sq]

theorem lt_length_iff {v : Vec2 ℝ} {L : ℝ} (hL : 0 ≤ L) : L < v.length ↔ L * L < v.length2 := by
  rw [length_eq', lt_sqrt hL, sq]

theorem length_lt_iff {v : Vec2 ℝ} {L : ℝ} (hL : 0 ≤ L) : v.length < L ↔ v.length2 < L * L := by
  rw [← not_le, le_length_iff hL, not_le]

theorem length_smul (v : Vec2 ℝ) (k : ℝ) : (v.smul k).length = |k| * v.length := by
  rw [length_eq_iff (mul_nonneg (abs_nonneg _) (length_nonneg _))]
  have := length_mul_self v
  have h2 := abs_mul_abs_self k
  calc (v.smul k).length2 = (k * k) * v.length2 := by simp [Vec2.length2]; ring
    _ = (|k| * |k|) * (v.length * v.length) := by rw [h2, this]
    _ = _ := by ring

end Planar
