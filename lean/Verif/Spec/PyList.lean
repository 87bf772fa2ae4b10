import Mathlib.Data.List.Basic
/- What the Python language reference says about list indices and slices, written independently of the model. -/
namespace Planar.Spec

/-- Python index `i` denotes position `k` of a list of length `n`: `k = i`, or `k = n + i` for negative `i`, and `k` is a
position of the list. -/
def PyAt (n : Nat) (i : Int) (k : Nat) : Prop :=
  ((0 ≤ i ∧ (k : Int) = i) ∨ (i < 0 ∧ (k : Int) = n + i)) ∧ k < n

/-- A slice bound of a positive-step slice: negative bounds count from the end; everything is clamped to `0..n`. -/
def boundUp (n : Nat) (dflt : Int) : Option Int → Int
  | none => dflt
  | some i => if i < 0 then max 0 (i + n) else min i n

/-- A slice bound of a negative-step slice, clamped to `-1..n-1`. -/
def boundDown (n : Nat) (dflt : Int) : Option Int → Int
  | none => dflt
  | some i => if i < 0 then max (-1) (i + n) else min i (n - 1)

/-- The positions selected by `start:stop:step`: going up, the positions from `start` (included) to `stop` (excluded) at
multiples of `step` from `start`; going down likewise in reverse. -/
def slicePositions (n : Nat) (start stop : Option Int) (step : Int) : List Nat :=
  if step > 0 then
    let lo := boundUp n 0 start
    let hi := boundUp n n stop
    (List.range n).filter fun (i : Nat) => decide (lo ≤ i ∧ (i : Int) < hi ∧ step ∣ (i : Int) - lo)
  else
    let lo := boundDown n (n - 1) start
    let hi := boundDown n (-1) stop
    (List.range n).reverse.filter fun (i : Nat) => decide ((i : Int) ≤ lo ∧ hi < (i : Int) ∧ step ∣ (i : Int) - lo)

end Planar.Spec
