import Verif.Model.History
/- Histories of a polygon object in which `planar.set_epsilon` is called. -/
namespace Planar
variable {K : Type}

/-- What a program does: operate on the polygon, or call `planar.set_epsilon` (planar/__init__.py:58-76). -/
inductive EpsOp (K : Type) where
  | op (o : PolyOp K)
  | setEpsilon (e : K)

/-- The operations on the polygon alone. -/
def EpsOp.only : List (EpsOp K) → List (PolyOp K)
  | [] => []
  | .op o :: ops => o :: only ops
  | .setEpsilon _ :: ops => only ops

/-- The values EPSILON is given. -/
def EpsOp.values : List (EpsOp K) → List K
  | [] => []
  | .op _ :: ops => values ops
  | .setEpsilon e :: ops => e :: values ops

section
variable [Add K] [Sub K] [Mul K] [Div K] [Zero K] [One K] [BEq K] [LT K] [LE K] [DecidableLT K] [DecidableLE K]

/-- One step of a program on the module's EPSILON (planar/__init__.py:56-76) and the polygon: an operation reads the
EPSILON of that moment (polygon.py:622, vector.py:88-101). -/
def EpsOp.step (w : K × Polygon K) : EpsOp K → K × Polygon K
  | .op o => (w.1, o.run w.1 w.2)
  | .setEpsilon e => (e, w.2)

/-- EPSILON and the polygon after a whole history. -/
def EpsOp.run (w : K × Polygon K) (ops : List (EpsOp K)) : K × Polygon K := ops.foldl EpsOp.step w

end

/-- The module variables `planar.EPSILON` and `planar.EPSILON2` (planar/__init__.py:56-57). -/
structure EpsGlobals (K : Type) where
  eps : K
  eps2 : K

/-- planar/__init__.py:58-74 `set_epsilon`: EPSILON is assigned before the square is computed, which can raise. -/
def EpsGlobals.set [PyMath K] (g : EpsGlobals K) (e : K) : Py Unit × EpsGlobals K :=
  match pysq e with
  | .ok q => (.ok (), ⟨e, q⟩)
  | .error x => (.error x, ⟨e, g.eps2⟩)

/-- The module variables after any number of calls of `set_epsilon`; exceptions are caught by the caller. -/
def EpsGlobals.run [PyMath K] (g : EpsGlobals K) (es : List K) : EpsGlobals K := es.foldl (fun g e => (g.set e).2) g

end Planar
