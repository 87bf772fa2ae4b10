import Verif.Model.Tangents
/- Histories of operations on a polygon object, and a small heap in which polygon objects own (or could share) their
lists of vertices. -/
namespace Planar
variable {K : Type}

/-- Everything a user can do with an existing polygon that may write to it: `poly[i] = v` (polygon.py:437-439),
`poly *= T` (515-522), and reading `is_convex` (205-214), `is_simple` (322-337), `centroid` (397-427), `bounding_box`
(198-203), `contains_point` (658-688), `tangents_to_point` (800-817). Slice assignment is not included (see
`seq2SetSlice`). -/
inductive PolyOp (K : Type) where
  | setItem (i : Int) (v : Vec2 K)
  | imul (T : Affine K)
  | isConvex
  | isSimple
  | centroid
  | boundingBox
  | contains (p : PyPoint K)
  | tangents (p : Vec2 K)
  deriving Repr

/-- The operations that do not assign: property reads and queries. -/
def PolyOp.isRead : PolyOp K → Bool
  | .setItem _ _ => false
  | .imul _ => false
  | _ => true

section
variable [Add K] [Sub K] [Mul K] [Div K] [Zero K] [One K] [BEq K] [LT K] [LE K] [DecidableLT K] [DecidableLE K]

/-- The object after one operation (whether or not it raised), polygon.py as cited at `PolyOp`. -/
def PolyOp.run (eps : K) (s : Polygon K) : PolyOp K → Polygon K
  | .setItem i v => (s.setItem i v).2
  | .imul T => s.imul T
  | .isConvex => s.isConvex.2
  | .isSimple => s.isSimple.2
  | .centroid => s.getCentroid.2
  | .boundingBox => s.boundingBox.2
  | .contains p => (s.containsPoint eps p).2
  | .tangents p => (s.tangentsToPoint p).2

/-- The object after a history of operations. -/
def Polygon.after (eps : K) (s : Polygon K) (ops : List (PolyOp K)) : Polygon K := ops.foldl (PolyOp.run eps) s

/-- The Python heap as far as polygons are concerned: list objects (the `_vectors` attributes, addressed by position)
and polygon objects, each with the address of its list and its other attributes (the `verts` field of the stored
`Polygon` is not used). The remaining attributes hold numbers, immutable tuples and boxes, and lists that are never
modified in place. -/
structure Heap (K : Type) where
  lists : List (List (Vec2 K))
  objs : List (Nat × Polygon K)

namespace Heap

/-- The value of the polygon object at address `i`. -/
def view (h : Heap K) (i : Nat) : Option (Polygon K) :=
  match h.objs[i]? with
  | none => none
  | some (r, c) => some { c with verts := h.lists[r]?.getD [] }

/-- Allocate a new list object and a new polygon object that owns it, with the attributes of `s`: what
`from_points` (vector.py:478-483, polygon.py:173-178) and `__init__` (vector.py:475-476) do. -/
def alloc (h : Heap K) (s : Polygon K) : Heap K :=
  ⟨h.lists ++ [s.verts], h.objs ++ [(h.lists.length, s)]⟩

/-- Operations of a program with several polygon objects. -/
inductive Op (K : Type) where
  /-- a polygon is made of the points -/
  | make (vs : List (Vec2 K))
  /-- operate on object `i` -/
  | on (i : Nat) (op : PolyOp K)
  /-- `copy.copy(object i)`, polygon.py:524-537 -/
  | copy (i : Nat)
  /-- `copy.deepcopy(object i)`, polygon.py:539-543 -/
  | deepcopy (i : Nat)
  /-- `T * object i`, transform.py:260-267 -/
  | transformed (i : Nat) (T : Affine K)

/-- The heap after one operation; operations on addresses that do not exist do nothing. Writing to a polygon writes to
the list object it refers to (vector.py:497-498). -/
def step (eps : K) (h : Heap K) : Op K → Heap K
  | .make vs => h.alloc (Polygon.fromPoints vs)
  | .on i op => match h.objs[i]?, h.view i with
    | some (r, _), some s =>
      let s' := op.run eps s
      ⟨h.lists.set r s'.verts, h.objs.set i (r, s')⟩
    | _, _ => h
  | .copy i => match h.view i with
    | some s => h.alloc s.copy
    | none => h
  | .deepcopy i => match h.view i with
    | some s => h.alloc s.deepcopy
    | none => h
  | .transformed i T => match h.view i with
    | some s => h.alloc (s.transformed T)
    | none => h

end Heap
end
end Planar
