import Verif.Model.Num
/- What a sensible value of `planar.EPSILON` is, for any arithmetic. -/
namespace Planar
variable {K : Type} [Mul K] [Neg K] [Zero K] [BEq K] [LT K] [DecidableLT K]

/-- A number that can serve as tolerance (specification): whatever compares equal to zero is below it in magnitude, and
exceeds neither it nor its square. True of every positive number in exact arithmetic, in double precision (also when the
square is rounded to zero) and in arithmetic with NaN. -/
structure Spec.Tolerance (eps : K) : Prop where
  /-- a zero is not above EPSILON -/
  above : ∀ x : K, (x == 0) = true → ¬ eps < x
  /-- a zero is not above EPSILON2 -/
  above2 : ∀ x : K, (x == 0) = true → ¬ eps * eps < x
  /-- the magnitude of a zero is below EPSILON -/
  below : ∀ x : K, (x == 0) = true → (if x < 0 then -x else x) < eps

end Planar
