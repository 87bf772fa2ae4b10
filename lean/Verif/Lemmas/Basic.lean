import Verif.Model.Vec2
import Verif.Model.Affine
import Mathlib.Algebra.Order.Field.Basic
import Mathlib.Algebra.Order.AbsoluteValue.Basic
import Mathlib.Tactic.Ring
import Mathlib.Tactic.FieldSimp
import Mathlib.Tactic.Linarith
import Mathlib.Tactic.Positivity
/- Basic facts about the model at an ordered field: the Python helpers become the usual
mathematical operations. -/
set_option linter.unusedSectionVars false
namespace Planar

section Eq
variable {K : Type}

@[ext] theorem Vec2.ext {a b : Vec2 K} (hx : a.x = b.x) (hy : a.y = b.y) : a = b := by
  cases a; cases b; simp_all

theorem Vec2.ext_iff' {a b : Vec2 K} : a = b ↔ a.x = b.x ∧ a.y = b.y := by
  constructor
  · rintro rfl; simp
  · rintro ⟨h, h'⟩; exact Vec2.ext h h'

@[ext] theorem Affine.ext {s t : Affine K} (ha : s.a = t.a) (hb : s.b = t.b) (hc : s.c = t.c)
    (hd : s.d = t.d) (he : s.e = t.e) (hf : s.f = t.f) : s = t := by
  cases s; cases t; simp_all

@[simp] theorem Vec2.beq_def [BEq K] (a b : Vec2 K) : (a == b) = (a.x == b.x && a.y == b.y) := by
  change (a.x == b.x && a.y == b.y && _) = _
  simp [Vec2.toList]

instance [BEq K] [LawfulBEq K] : LawfulBEq (Vec2 K) where
  eq_of_beq h := by
    rw [Vec2.beq_def] at h
    simp at h; exact Vec2.ext h.1 h.2
  rfl := by simp

@[simp] theorem Vec2.add_x [Add K] (a b : Vec2 K) : (a + b).x = a.x + b.x := rfl
@[simp] theorem Vec2.add_y [Add K] (a b : Vec2 K) : (a + b).y = a.y + b.y := rfl
@[simp] theorem Vec2.sub_x [Sub K] (a b : Vec2 K) : (a - b).x = a.x - b.x := rfl
@[simp] theorem Vec2.sub_y [Sub K] (a b : Vec2 K) : (a - b).y = a.y - b.y := rfl
@[simp] theorem Vec2.neg_x [Neg K] (a : Vec2 K) : (-a).x = -a.x := rfl
@[simp] theorem Vec2.neg_y [Neg K] (a : Vec2 K) : (-a).y = -a.y := rfl
@[simp] theorem Vec2.smul_x [Mul K] (a : Vec2 K) (k : K) : (a.smul k).x = a.x * k := rfl
@[simp] theorem Vec2.smul_y [Mul K] (a : Vec2 K) (k : K) : (a.smul k).y = a.y * k := rfl
@[simp] theorem Vec2.vmul_x [Mul K] (a k : Vec2 K) : (a.vmul k).x = a.x * k.x := rfl
@[simp] theorem Vec2.vmul_y [Mul K] (a k : Vec2 K) : (a.vmul k).y = a.y * k.y := rfl
@[simp] theorem Vec2.null_x [Zero K] : (Vec2.null : Vec2 K).x = 0 := rfl
@[simp] theorem Vec2.null_y [Zero K] : (Vec2.null : Vec2 K).y = 0 := rfl
@[simp] theorem Vec2.perp_x [Neg K] (a : Vec2 K) : a.perpendicular.x = -a.y := rfl
@[simp] theorem Vec2.perp_y [Neg K] (a : Vec2 K) : a.perpendicular.y = a.x := rfl

@[simp] theorem Vec2.mk'_eq [MulOneClass K] (x y : K) : Vec2.mk' x y = ⟨x, y⟩ := by
  simp [Vec2.mk']
@[simp] theorem Vec2.copy_eq [MulOneClass K] (p : Vec2 K) : p.copy = p := by
  simp [Vec2.copy]
@[simp] theorem Affine.mul_def [Add K] [Mul K] (s t : Affine K) : s * t = s.mul t := rfl

end Eq

section Numbers
variable {K : Type} [LinearOrder K] [Div K] [Zero K]

@[simp] theorem pymin_eq_min (a b : K) : pymin a b = min a b := by
  unfold pymin
  split
  · rw [min_eq_right (le_of_lt (by assumption))]
  · rw [min_eq_left (not_lt.mp (by assumption))]

@[simp] theorem pymax_eq_max (a b : K) : pymax a b = max a b := by
  unfold pymax
  split
  · rw [max_eq_right (le_of_lt (by assumption))]
  · rw [max_eq_left (not_lt.mp (by assumption))]

theorem pydiv_ok {a b : K} (h : b ≠ 0) : pydiv a b = .ok (a / b) := by
  simp [pydiv, h]

@[simp] theorem pydiv_zero (a : K) : pydiv a 0 = .error .zeroDivisionError := by
  simp [pydiv]

theorem pydiv_eq_ok {a b c : K} : pydiv a b = .ok c ↔ b ≠ 0 ∧ c = a / b := by
  by_cases h : b = 0
  · subst h; simp
  · rw [pydiv_ok h]; simp [h, eq_comm]

end Numbers

section Ordered
variable {K : Type} [Field K] [LinearOrder K] [IsStrictOrderedRing K]

@[simp] theorem pyabs_eq_abs (a : K) : pyabs a = |a| := by
  unfold pyabs
  split
  · rw [abs_of_neg (by assumption)]
  · rw [abs_of_nonneg (not_lt.mp (by assumption))]

theorem length2_nonneg (v : Vec2 K) : 0 ≤ v.length2 := by
  unfold Vec2.length2; nlinarith [mul_self_nonneg v.x, mul_self_nonneg v.y]

theorem length2_eq_zero {v : Vec2 K} : v.length2 = 0 ↔ v = Vec2.null := by
  constructor
  · intro h
    unfold Vec2.length2 at h
    have hx : v.x * v.x = 0 := by nlinarith [mul_self_nonneg v.x, mul_self_nonneg v.y]
    have hy : v.y * v.y = 0 := by nlinarith [mul_self_nonneg v.x, mul_self_nonneg v.y]
    exact Vec2.ext (mul_self_eq_zero.mp hx) (mul_self_eq_zero.mp hy)
  · rintro rfl; simp [Vec2.length2]

theorem length2_pos {v : Vec2 K} (h : v ≠ Vec2.null) : 0 < v.length2 :=
  lt_of_le_of_ne (length2_nonneg v) fun h' => h (length2_eq_zero.mp h'.symm)

end Ordered
end Planar
