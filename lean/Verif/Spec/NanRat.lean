import Mathlib.Data.Rat.Floor
/- Numbers with a NaN, as in IEEE 754: it propagates through the operations and every comparison with it is False.
Independent of the model of planar. -/
namespace Planar.Spec

/-- A rational number or NaN. -/
inductive NanRat where
  | nan
  | fin (q : ℚ)

namespace NanRat

/-- An operation on numbers, extended to NaN. -/
def lift (f : ℚ → ℚ → ℚ) : NanRat → NanRat → NanRat
  | .fin a, .fin b => .fin (f a b)
  | _, _ => .nan

/-- A comparison of numbers, extended to NaN. -/
def cmp (f : ℚ → ℚ → Bool) : NanRat → NanRat → Bool
  | .fin a, .fin b => f a b
  | _, _ => false

instance : Add NanRat := ⟨lift (· + ·)⟩
instance : Sub NanRat := ⟨lift (· - ·)⟩
instance : Mul NanRat := ⟨lift (· * ·)⟩
instance : Div NanRat := ⟨lift (· / ·)⟩
instance : Neg NanRat := ⟨fun a => match a with | .fin a => .fin (-a) | .nan => .nan⟩
instance : Zero NanRat := ⟨.fin 0⟩
instance : One NanRat := ⟨.fin 1⟩
instance : BEq NanRat := ⟨cmp (fun a b => decide (a = b))⟩
instance : LT NanRat := ⟨fun a b => cmp (fun a b => decide (a < b)) a b = true⟩
instance : LE NanRat := ⟨fun a b => cmp (fun a b => decide (a ≤ b)) a b = true⟩
instance : DecidableLT NanRat := fun a b => inferInstanceAs (Decidable (cmp (fun a b => decide (a < b)) a b = true))
instance : DecidableLE NanRat := fun a b => inferInstanceAs (Decidable (cmp (fun a b => decide (a ≤ b)) a b = true))

/-- Not NaN. -/
def isNum : NanRat → Prop
  | .fin _ => True
  | .nan => False

/-- The place on the line (of NaN: 0, never used). -/
def place : NanRat → ℚ
  | .fin q => q
  | .nan => 0

end NanRat
end Planar.Spec
