import Verif.Spec.Reachable
import Verif.Model.Mutate
/- Polygons after any number of interrupted operations. -/
namespace Planar
variable {K : Type} [Add K] [Sub K] [Mul K] [Div K] [Neg K] [Zero K] [One K] [BEq K] [LT K] [LE K]
  [DecidableLT K] [DecidableLE K]

/-- Polygon objects on which some of the operations were interrupted, anywhere and any number of times, with other
operations in between: assignments stopped before access `k`, and reads of which one or several (in threads) were stopped. -/
inductive AfterInterrupts [PyMath K] (eps : K) (order : List (Vec2 K) → List (Vec2 K)) : Polygon K → Prop
  | none (s) (h : Reachable eps order s) : AfterInterrupts eps order s
  | item (s) (h : AfterInterrupts eps order s) (i : Int) (v : Vec2 K) (k : Nat) :
      AfterInterrupts eps order ((Mutate.setItem i v).stopped k s)
  | times (s) (h : AfterInterrupts eps order s) (T : Affine K) (k : Nat) :
      AfterInterrupts eps order ((Mutate.imul T).stopped k s)
  | reads (s) (h : AfterInterrupts eps order s) (ops : List (ReadOp K)) (sched : List Nat) :
      AfterInterrupts eps order ((startReads eps s ops).run sched).shared.view
  | op (s) (h : AfterInterrupts eps order s) (o : PolyOp K) : AfterInterrupts eps order (o.run eps s)

end Planar
