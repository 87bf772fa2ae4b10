import Mathlib.Algebra.Order.Field.Basic
import Mathlib.Algebra.Order.Floor.Ring
import Mathlib.Data.Int.Log
import Mathlib.Data.Rat.Floor
/- Floating point numbers: a field whose operations are rounded. Independent of the model of planar.

The model (lean/Verif/Model) only asks for the notation of the operations, so it can be run on these numbers as it is.
What is left out: NaN, and the difference between 0.0 and -0.0 (which are == in Python). -/
namespace Planar.Spec

/-- A way to round: a function of the exact result that keeps the order, commutes with the sign, and leaves alone what it
returns, zero and one. -/
structure Rounding (F : Type) [Field F] [LinearOrder F] where
  rnd : F → F
  mono : ∀ x y, x ≤ y → rnd x ≤ rnd y
  odd : ∀ x, rnd (-x) = -rnd x
  idem : ∀ x, rnd (rnd x) = rnd x
  zero : rnd 0 = 0
  one : rnd 1 = 1
  /-- gradual underflow: the difference of two different floats is not rounded to zero -/
  gradual : ∀ x y, rnd x = x → rnd y = y → rnd (x - y) = 0 → x = y

/-- The numbers that the rounding leaves alone: the floats. -/
structure Fl {F : Type} [Field F] [LinearOrder F] (R : Rounding F) where
  val : F
  fixed : R.rnd val = val

namespace Fl
variable {F : Type} [Field F] [LinearOrder F] {R : Rounding F}

/-- Rounding an exact result. -/
def round (R : Rounding F) (x : F) : Fl R := ⟨R.rnd x, R.idem x⟩

instance : Add (Fl R) := ⟨fun a b => round R (a.val + b.val)⟩
instance : Sub (Fl R) := ⟨fun a b => round R (a.val - b.val)⟩
instance : Mul (Fl R) := ⟨fun a b => round R (a.val * b.val)⟩
instance : Div (Fl R) := ⟨fun a b => round R (a.val / b.val)⟩
instance : Zero (Fl R) := ⟨⟨0, R.zero⟩⟩
instance : One (Fl R) := ⟨⟨1, R.one⟩⟩
instance : Neg (Fl R) := ⟨fun a => ⟨-a.val, by rw [R.odd, a.fixed]⟩⟩

theorem ext {a b : Fl R} (h : a.val = b.val) : a = b := by cases a; cases b; cases h; rfl

/-- Floats are compared by their values. -/
instance : LinearOrder (Fl R) := LinearOrder.lift' Fl.val (fun _ _ h => ext h)

theorem le_iff (a b : Fl R) : a ≤ b ↔ a.val ≤ b.val := Iff.rfl
theorem lt_iff (a b : Fl R) : a < b ↔ a.val < b.val := Iff.rfl
theorem add_val (a b : Fl R) : (a + b).val = R.rnd (a.val + b.val) := rfl
theorem sub_val (a b : Fl R) : (a - b).val = R.rnd (a.val - b.val) := rfl
theorem mul_val (a b : Fl R) : (a * b).val = R.rnd (a.val * b.val) := rfl
theorem div_val (a b : Fl R) : (a / b).val = R.rnd (a.val / b.val) := rfl
theorem neg_val (a : Fl R) : (-a).val = -a.val := rfl
theorem zero_val : (0 : Fl R).val = 0 := rfl
theorem one_val : (1 : Fl R).val = 1 := rfl
end Fl

/-- The laws of arithmetic that survive rounding. Associativity, distributivity and cancellation are not among them. -/
class RoundedArith (K : Type) [LinearOrder K] [Add K] [Sub K] [Mul K] [Div K] [Neg K] [Zero K] [One K] : Prop where
  add_comm : ∀ a b : K, a + b = b + a
  add_zero : ∀ a : K, a + 0 = a
  mul_comm : ∀ a b : K, a * b = b * a
  mul_one : ∀ a : K, a * 1 = a
  mul_zero : ∀ a : K, a * 0 = 0
  div_one : ∀ a : K, a / 1 = a
  neg_neg : ∀ a : K, -(-a) = a
  sub_def : ∀ a b : K, a - b = a + -b
  neg_add : ∀ a b : K, -(a + b) = -a + -b
  neg_mul : ∀ a b : K, -(a * b) = -a * b
  sub_self : ∀ a : K, a - a = 0
  eq_of_sub : ∀ a b : K, a - b = 0 → a = b
  neg_le : ∀ a b : K, a ≤ b → -b ≤ -a
  add_le : ∀ a b c : K, b ≤ c → a + b ≤ a + c
  mul_le : ∀ a b c : K, 0 ≤ a → b ≤ c → a * b ≤ a * c
  div_le : ∀ a b c : K, 0 < c → a ≤ b → a / c ≤ b / c
  zero_lt_one : (0 : K) < 1

/-- Exact arithmetic obeys them, -/
instance {F : Type} [Field F] [LinearOrder F] [IsStrictOrderedRing F] : RoundedArith F where
  add_comm := add_comm
  add_zero := add_zero
  mul_comm := mul_comm
  mul_one := mul_one
  mul_zero := mul_zero
  div_one := div_one
  neg_neg := neg_neg
  sub_def := sub_eq_add_neg
  neg_add a b := by ring
  neg_mul a b := by ring
  sub_self := sub_self
  eq_of_sub a b h := sub_eq_zero.mp h
  neg_le a b h := neg_le_neg h
  add_le a b c h := by linarith
  mul_le a b c h h' := mul_le_mul_of_nonneg_left h' h
  div_le a b c h h' := by gcongr
  zero_lt_one := zero_lt_one

/-- and so does rounded arithmetic. -/
instance {F : Type} [Field F] [LinearOrder F] [IsStrictOrderedRing F] (R : Rounding F) : RoundedArith (Fl R) where
  add_comm a b := Fl.ext (by rw [Fl.add_val, Fl.add_val, add_comm])
  add_zero a := Fl.ext (by rw [Fl.add_val, Fl.zero_val, add_zero, a.fixed])
  mul_comm a b := Fl.ext (by rw [Fl.mul_val, Fl.mul_val, mul_comm])
  mul_one a := Fl.ext (by rw [Fl.mul_val, Fl.one_val, mul_one, a.fixed])
  mul_zero a := Fl.ext (by rw [Fl.mul_val, Fl.zero_val, mul_zero, R.zero])
  div_one a := Fl.ext (by rw [Fl.div_val, Fl.one_val, div_one, a.fixed])
  neg_neg a := Fl.ext (by rw [Fl.neg_val, Fl.neg_val, neg_neg])
  sub_def a b := Fl.ext (by rw [Fl.sub_val, Fl.add_val, Fl.neg_val, sub_eq_add_neg])
  neg_add a b := Fl.ext (by rw [Fl.neg_val, Fl.add_val, Fl.add_val, Fl.neg_val, Fl.neg_val, ← R.odd]; congr 1; ring)
  neg_mul a b := Fl.ext (by rw [Fl.neg_val, Fl.mul_val, Fl.mul_val, Fl.neg_val, ← R.odd]; congr 1; ring)
  sub_self a := Fl.ext (by rw [Fl.sub_val, Fl.zero_val, sub_self, R.zero])
  eq_of_sub a b h := Fl.ext (R.gradual a.val b.val a.fixed b.fixed (congrArg Fl.val h))
  neg_le a b h := neg_le_neg ((Fl.le_iff a b).mp h)
  add_le a b c h := R.mono _ _ (by have := (Fl.le_iff b c).mp h; linarith)
  mul_le a b c h h' := R.mono _ _ (mul_le_mul_of_nonneg_left ((Fl.le_iff b c).mp h') ((Fl.le_iff 0 a).mp h))
  div_le a b c h h' := R.mono _ _ (by
    have h1 := (Fl.lt_iff 0 c).mp h
    have h2 := (Fl.le_iff a b).mp h'
    rw [Fl.zero_val] at h1
    gcongr)
  zero_lt_one := by
    change (0 : F) < 1
    exact _root_.zero_lt_one

/-! ### IEEE rounding: to nearest, ties to even, with `p` binary digits (and unbounded exponents) -/

section IEEE
variable {F : Type} [Field F] [LinearOrder F] [IsStrictOrderedRing F] [FloorRing F]

/-- The nearest integer, ties to the even one. -/
def nearestEven (z : F) : ℤ :=
  if Int.fract z < 1 / 2 then ⌊z⌋ else if 1 / 2 < Int.fract z then ⌊z⌋ + 1 else if Even ⌊z⌋ then ⌊z⌋ else ⌊z⌋ + 1

/-- The distance of neighbouring floats with `p` binary digits near `x`. -/
def ulp (p : ℕ) (x : F) : F := 2 ^ (Int.log 2 x + 1 - p)

/-- Rounding a positive number to `p` binary digits. -/
def roundPos (p : ℕ) (x : F) : F := nearestEven (x / ulp p x) * ulp p x

/-- Rounding to `p` binary digits. -/
def roundTo (p : ℕ) (x : F) : F := if 0 < x then roundPos p x else if x < 0 then -roundPos p (-x) else 0

theorem nearestEven_cases (z : F) : nearestEven z = ⌊z⌋ ∨ nearestEven z = ⌊z⌋ + 1 := by
  unfold nearestEven; split_ifs <;> simp

theorem nearestEven_int (n : ℤ) : nearestEven (n : F) = n := by
  unfold nearestEven
  rw [Int.fract_intCast, Int.floor_intCast, if_pos (by norm_num)]

theorem nearestEven_mono {z w : F} (h : z ≤ w) : nearestEven z ≤ nearestEven w := by
  have hf := Int.floor_le_floor h
  rcases eq_or_lt_of_le hf with he | hl
  · have h1 : Int.fract z ≤ Int.fract w := by
      unfold Int.fract; rw [he]; linarith
    unfold nearestEven
    rw [he]
    split_ifs <;> first | omega | linarith
  · rcases nearestEven_cases z with h1 | h1 <;> rcases nearestEven_cases w with h2 | h2 <;> omega

theorem ulp_pos (p : ℕ) (x : F) : 0 < ulp p x := zpow_pos (by norm_num) _

theorem zpow_ulp (p : ℕ) (x : F) : (2 : F) ^ p * ulp p x = 2 ^ (Int.log 2 x + 1) := by
  unfold ulp
  rw [← zpow_natCast, ← zpow_add₀ (by norm_num)]; congr 1; ring

theorem zpow_ulp' {p : ℕ} (hp : 1 ≤ p) (x : F) : (2 : F) ^ (p - 1) * ulp p x = 2 ^ Int.log 2 x := by
  unfold ulp
  rw [← zpow_natCast, ← zpow_add₀ (by norm_num)]; congr 1; push_cast [hp]; ring

/-- Rounding stays between the powers of two. -/
theorem roundPos_bounds {p : ℕ} (hp : 1 ≤ p) {x : F} (hx : 0 < x) :
    (2 : F) ^ Int.log 2 x ≤ roundPos p x ∧ roundPos p x ≤ 2 ^ (Int.log 2 x + 1) := by
  have hu := ulp_pos p x
  have h1 := Int.zpow_log_le_self (b := 2) (by norm_num) hx
  have h2 := Int.lt_zpow_succ_log_self (b := 2) (by norm_num) x
  push_cast at h1 h2
  unfold roundPos
  constructor
  · rw [← zpow_ulp' hp] at h1 ⊢
    refine mul_le_mul_of_nonneg_right ?_ hu.le
    have : ((2 ^ (p - 1) : ℤ) : F) ≤ x / ulp p x := by rw [le_div_iff₀ hu]; push_cast; exact h1
    have := nearestEven_mono this
    rw [nearestEven_int] at this
    calc (2 : F) ^ (p - 1) = ((2 ^ (p - 1) : ℤ) : F) := by push_cast; rfl
      _ ≤ _ := Int.cast_le.mpr this
  · rw [← zpow_ulp p] at h2 ⊢
    refine mul_le_mul_of_nonneg_right ?_ hu.le
    have : x / ulp p x ≤ ((2 ^ p : ℤ) : F) := by rw [div_le_iff₀ hu]; push_cast; exact h2.le
    have := nearestEven_mono this
    rw [nearestEven_int] at this
    calc _ ≤ ((2 ^ p : ℤ) : F) := Int.cast_le.mpr this
      _ = (2 : F) ^ p := by push_cast; rfl

theorem roundPos_pos {p : ℕ} (hp : 1 ≤ p) {x : F} (hx : 0 < x) : 0 < roundPos p x :=
  lt_of_lt_of_le (zpow_pos (by norm_num) _) (roundPos_bounds hp hx).1

theorem roundPos_mono {p : ℕ} (hp : 1 ≤ p) {x y : F} (hx : 0 < x) (h : x ≤ y) : roundPos p x ≤ roundPos p y := by
  have hy : 0 < y := hx.trans_le h
  rcases eq_or_lt_of_le (Int.log_mono_right (b := 2) hx h) with he | hl
  · have hu : ulp p x = ulp p y := by unfold ulp; rw [he]
    unfold roundPos
    rw [hu]
    have := ulp_pos p y
    refine mul_le_mul_of_nonneg_right (Int.cast_le.mpr (nearestEven_mono ?_)) this.le
    gcongr
  · refine (roundPos_bounds hp hx).2.trans (le_trans ?_ (roundPos_bounds hp hy).1)
    exact zpow_le_zpow_right₀ (by norm_num) (by omega)

theorem roundPos_fixed {p : ℕ} (n : ℤ) {x : F} (h : x = n * ulp p x) : roundPos p x = x := by
  have hu := ulp_pos p x
  have : x / ulp p x = n := by rw [div_eq_iff hu.ne']; exact h
  unfold roundPos
  rw [this, nearestEven_int, ← h]

theorem roundPos_idem {p : ℕ} (hp : 1 ≤ p) {x : F} (hx : 0 < x) : roundPos p (roundPos p x) = roundPos p x := by
  obtain ⟨h1, h2⟩ := roundPos_bounds hp hx
  have hpos := roundPos_pos hp hx
  rcases eq_or_lt_of_le h2 with he | hl
  · have hlog : Int.log 2 (roundPos p x) = Int.log 2 x + 1 := by
      rw [he]
      have := Int.log_zpow (R := F) (b := 2) (by norm_num) (Int.log 2 x + 1)
      push_cast at this; exact this
    refine roundPos_fixed (2 ^ (p - 1)) ?_
    push_cast
    rw [zpow_ulp' hp, hlog, he]
  · have hlog : Int.log 2 (roundPos p x) = Int.log 2 x := by
      apply le_antisymm
      · have := (Int.lt_zpow_iff_log_lt (b := 2) (by norm_num) (x := Int.log 2 x + 1) hpos).mp (by push_cast; exact hl)
        omega
      · exact (Int.zpow_le_iff_le_log (b := 2) (by norm_num) hpos).mp (by push_cast; exact h1)
    have hu : ulp p (roundPos p x) = ulp p x := by unfold ulp; rw [hlog]
    exact roundPos_fixed (nearestEven (x / ulp p x)) (by rw [hu]; rfl)

theorem roundTo_pos {p : ℕ} {x : F} (hx : 0 < x) : roundTo p x = roundPos p x := if_pos hx
theorem roundTo_neg {p : ℕ} {x : F} (hx : x < 0) : roundTo p x = -roundPos p (-x) := by
  unfold roundTo; rw [if_neg (by linarith), if_pos hx]
theorem roundTo_zero (p : ℕ) : roundTo p (0 : F) = 0 := by unfold roundTo; simp

/-- Rounding to nearest, ties to even, with `p + 1` binary digits and without bounds on the exponent (see Spec/Double for
the IEEE format). -/
def ieee (F : Type) [Field F] [LinearOrder F] [IsStrictOrderedRing F] [FloorRing F] (p : ℕ) : Rounding F where
  rnd := roundTo (p + 1)
  mono := by
    have hp : 1 ≤ p + 1 := by omega
    intro x y h
    rcases lt_trichotomy x 0 with hx | hx | hx <;> rcases lt_trichotomy y 0 with hy | hy | hy
    · rw [roundTo_neg hx, roundTo_neg hy, neg_le_neg_iff]
      exact roundPos_mono hp (by linarith) (by linarith)
    · rw [roundTo_neg hx, hy, roundTo_zero]
      have := roundPos_pos hp (show 0 < -x by linarith); linarith
    · rw [roundTo_neg hx, roundTo_pos hy]
      have := roundPos_pos hp (show 0 < -x by linarith)
      have := roundPos_pos hp hy; linarith
    · linarith
    · rw [hx, hy]
    · rw [hx, roundTo_zero, roundTo_pos hy]
      exact (roundPos_pos hp hy).le
    · linarith
    · linarith
    · rw [roundTo_pos hx, roundTo_pos hy]
      exact roundPos_mono hp hx h
  odd := by
    intro x
    rcases lt_trichotomy x 0 with hx | hx | hx
    · rw [roundTo_neg hx, roundTo_pos (by linarith), neg_neg]
    · rw [hx, neg_zero, roundTo_zero, neg_zero]
    · rw [roundTo_pos hx, roundTo_neg (by linarith), neg_neg]
  idem := by
    have hp : 1 ≤ p + 1 := by omega
    intro x
    rcases lt_trichotomy x 0 with hx | hx | hx
    · have h := roundPos_pos hp (show 0 < -x by linarith)
      rw [roundTo_neg hx, roundTo_neg (by linarith), neg_neg, roundPos_idem hp (by linarith)]
    · rw [hx, roundTo_zero, roundTo_zero]
    · rw [roundTo_pos hx, roundTo_pos (roundPos_pos hp hx), roundPos_idem hp hx]
  zero := roundTo_zero _
  gradual := by
    have hp : 1 ≤ p + 1 := by omega
    intro x y _ _ h
    rcases lt_trichotomy (x - y) 0 with hx | hx | hx
    · rw [roundTo_neg hx] at h
      have := roundPos_pos hp (show 0 < -(x - y) by linarith); linarith
    · linarith
    · rw [roundTo_pos hx] at h
      have := roundPos_pos hp hx; linarith
  one := by
    rw [roundTo_pos (by norm_num)]
    refine roundPos_fixed (2 ^ p) ?_
    have := zpow_ulp' (F := F) (p := p + 1) (by omega) 1
    rw [Int.log_one_right, zpow_zero] at this
    push_cast
    exact this.symm

end IEEE
end Planar.Spec
