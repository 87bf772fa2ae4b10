import Verif.Model.Operators
/- A Python heap for programs with several Seq2, Vec2Array and Polygon objects: list objects (the `_vectors` attributes)
and sequence objects that refer to them. Methods either write to the list an object refers to, or make the object refer
to a new list, or make a new object; nothing in the representation keeps two objects from referring to one list. The
cached attributes of polygons are not part of this heap (see Model/History.lean). -/
namespace Planar
variable {K : Type}

/-- The heap: list objects, and sequence objects (class and address of the list `_vectors`), both addressed by
position. -/
structure SeqHeap (K : Type) where
  lists : List (List (Vec2 K))
  objs : List (SeqCls × Nat)

/-- A statement of a program. The numbers `i`, `j` name existing objects. -/
inductive SeqStmt (K : Type) where
  /-- `cls(points)`, vector.py:481-482, 544-545, polygon.py:76-87 -/
  | make (c : SeqCls) (vs : List (Vec2 K))
  /-- `cls(obj_j)` -/
  | convert (c : SeqCls) (j : Nat)
  /-- `cls.from_points(obj_j)`, vector.py:484-489, polygon.py:173-178 -/
  | fromPoints (c : SeqCls) (j : Nat)
  /-- `copy.copy(obj_j)`, `copy.deepcopy(obj_j)`, vector.py:529-532, polygon.py:524-543; `+array`, vector.py:931-932 -/
  | copy (j : Nat)
  /-- `array_j[start:stop:step]`, vector.py:547-549 -/
  | slice (j : Nat) (start stop : Option Int) (step : Int)
  /-- `obj_i[k] = v`, vector.py:497-498, 553-557, polygon.py:437-439 -/
  | setItem (i : Nat) (k : Int) (v : Vec2 K)
  /-- `array_i[start:stop:step] = obj_j`, vector.py:553-555 -/
  | setSlice (i : Nat) (start stop : Option Int) (step : Int) (j : Nat)
  /-- `array_i.append(v)`, vector.py:559-565 -/
  | append (i : Nat) (v : Vec2 K)
  /-- `array_i.insert(k, v)`, vector.py:574-582 -/
  | insert (i : Nat) (k : Int) (v : Vec2 K)
  /-- `del array_i[k]`, vector.py:584-585 -/
  | delItem (i : Nat) (k : Int)
  /-- `del array_i[start:stop:step]`, vector.py:584-585 -/
  | delSlice (i : Nat) (start stop : Option Int) (step : Int)
  /-- `array_i.extend(obj_j)`, vector.py:567-572 -/
  | extend (i j : Nat)
  /-- `array_i.normalize()`, vector.py:620-622 -/
  | normalize (i : Nat)
  /-- `array_i.clamp(lo, hi)`, vector.py:642-656 -/
  | clamp (i : Nat) (lo hi : Option K)
  /-- `obj_i op obj_j` (see `Operand.binop`) -/
  | binop (op : BinOp) (i j : Nat)
  /-- `obj_i op x` with something that is not a sequence -/
  | binopWith (op : BinOp) (i : Nat) (x : Operand K)
  /-- `x op obj_i` with something that is not a sequence -/
  | rbinopWith (op : BinOp) (x : Operand K) (i : Nat)
  /-- `obj_i op= obj_j` (see `Operand.inplace`) -/
  | inplace (op : BinOp) (i j : Nat)
  /-- `obj_i op= x` with something that is not a sequence -/
  | inplaceWith (op : BinOp) (i : Nat) (x : Operand K)

namespace SeqHeap

/-- The list at address `r`. -/
def list (h : SeqHeap K) (r : Nat) : List (Vec2 K) := h.lists[r]?.getD []

/-- Class and items of object `i`. -/
def view (h : SeqHeap K) (i : Nat) : Option (SeqCls × List (Vec2 K)) :=
  h.objs[i]?.map fun o => (o.1, h.list o.2)

/-- A new list and a new object that refers to it: `self._vectors = [...]` in `__init__` (vector.py:481-482) and
`list(points)` in `from_points` (vector.py:484-489). -/
def alloc (h : SeqHeap K) (c : SeqCls) (vs : List (Vec2 K)) : SeqHeap K :=
  ⟨h.lists ++ [vs], h.objs ++ [(c, h.lists.length)]⟩

/-- Write to the list object `i` refers to (`self._vectors[k] = ...`, `self._vectors.append(...)`, ...). -/
def write (h : SeqHeap K) (i : Nat) (vs : List (Vec2 K)) : SeqHeap K :=
  match h.objs[i]? with
  | some (_, r) => ⟨h.lists.set r vs, h.objs⟩
  | none => h

/-- `self._vectors = [...]` in a method of object `i`: it refers to a new list from now on. -/
def rebind (h : SeqHeap K) (i : Nat) (vs : List (Vec2 K)) : SeqHeap K :=
  match h.objs[i]? with
  | some (c, _) => ⟨h.lists ++ [vs], h.objs.set i (c, h.lists.length)⟩
  | none => h

/-- A new object if the operation returned a sequence of vectors; single vectors, tuples and sequences of other things
are not in this heap. -/
def result (h : SeqHeap K) : Py (Value K) → SeqHeap K
  | .ok (.seq c vs) => h.alloc c vs
  | _ => h

section
variable [PyMath K] [Add K] [Sub K] [Mul K] [Div K] [Zero K] [One K] [BEq K]

/-- `obj_i op= x`: an array with a transform, and a Seq2 or Polygon with a transform, write to their list
(transform.py:290-301); all other in-place operators of an array make it refer to a new list (vector.py:689, 698, ...).
When the method is missing the name is bound to a new object. `none`: the list would contain things that are not
vectors (see `C71_accidents`). -/
def inplaceOp (h : SeqHeap K) (op : BinOp) (i : Nat) (l x : Operand K) : Option (SeqHeap K) :=
  match Operand.inplace op l x, x with
  | .ok (.seq _ vs, true), .affine _ => some (h.write i vs)
  | .ok (.seq _ vs, true), _ => some (h.rebind i vs)
  | .ok (.seqNested _ _, true), _ => none
  | .ok (v, _), _ => some (h.result (.ok v))
  | .error _, _ => some h

variable [LT K] [DecidableLT K]

/-- The effect of a statement other than `extend`, whether it returns or raises; statements about objects that do not
exist or do not have the method do nothing. `none` as for `inplaceOp`. -/
def exec (eps : K) (h : SeqHeap K) : SeqStmt K → Option (SeqHeap K)
  | .make c vs => some (if c = .polygon ∧ vs.length < 3 then h else h.alloc c (Vec2Array.new vs))
  | .convert c j => match h.view j with
    | some (_, vs) => some (if c = .polygon ∧ vs.length < 3 then h else h.alloc c (Vec2Array.new vs))
    | none => some h
  | .fromPoints c j => match h.view j with
    | some (_, vs) => some (h.alloc c (Vec2Array.fromPoints vs))
    | none => some h
  | .copy j => match h.view j with
    | some (c, vs) => some (h.alloc c (Vec2Array.copy vs))
    | none => some h
  | .slice j start stop step => match h.view j with
    | some (.array, vs) => match Vec2Array.getSlice vs start stop step with
      | .ok ws => some (h.alloc .array ws)
      | .error _ => some h
    | _ => some h
  | .setItem i k v => match h.view i with
    | some (_, vs) => some (h.write i (Vec2Array.setItem vs k v).2)
    | none => some h
  | .setSlice i start stop step j => match h.view i, h.view j with
    | some (.array, vs), some (_, ws) => some (h.write i (Vec2Array.setSlice vs start stop step ws).2)
    | _, _ => some h
  | .append i v => match h.view i with
    | some (.array, vs) => some (h.write i (Vec2Array.append vs v))
    | _ => some h
  | .insert i k v => match h.view i with
    | some (.array, vs) => some (h.write i (Vec2Array.insert vs k v))
    | _ => some h
  | .delItem i k => match h.view i with
    | some (.array, vs) => some (h.write i (Vec2Array.delItem vs k).2)
    | _ => some h
  | .delSlice i start stop step => match h.view i with
    | some (.array, vs) => some (h.write i (Vec2Array.delSlice vs start stop step).2)
    | _ => some h
  | .extend _ _ => some h
  | .normalize i => match h.view i with
    | some (.array, vs) => match Vec2Array.normalize eps vs with
      | (.ok _, ws) => some (h.rebind i ws)
      | (.error _, _) => some h
    | _ => some h
  | .clamp i lo hi => match h.view i with
    | some (.array, vs) => match Vec2Array.clamp eps vs lo hi with
      | (.ok _, ws) => some (h.rebind i ws)
      | (.error _, _) => some h
    | _ => some h
  | .binop op i j => match h.view i, h.view j with
    | some (c, vs), some (d, ws) => some (h.result (Operand.binop op (.seq c vs) (.seq d ws)))
    | _, _ => some h
  | .binopWith op i x => match h.view i with
    | some (c, vs) => some (h.result (Operand.binop op (.seq c vs) x))
    | none => some h
  | .rbinopWith op x i => match h.view i with
    | some (c, vs) => some (h.result (Operand.binop op x (.seq c vs)))
    | none => some h
  | .inplace op i j => match h.view i, h.view j with
    | some (c, vs), some (d, ws) => h.inplaceOp op i (.seq c vs) (.seq d ws)
    | _, _ => some h
  | .inplaceWith op i x => match h.view i with
    | some (c, vs) => h.inplaceOp op i (.seq c vs) x
    | none => some h

end

/-- vector.py:567-572, the loop of `extend`: the generator reads item `n` of the list at address `src` (the list iterator
looks at the current length of the list every time) and `list.extend` appends `Vec2(*item)` to the list at `dst`.
`ExtendLoop src dst n lists lists'`: started with item `n` the loop ends, and turns `lists` into `lists'`. -/
inductive ExtendLoop [Mul K] [One K] (src dst : Nat) : Nat → List (List (Vec2 K)) → List (List (Vec2 K)) → Prop where
  | done {n : Nat} {ls : List (List (Vec2 K))} : (ls[src]?.getD []).length ≤ n → ExtendLoop src dst n ls ls
  | next {n : Nat} {ls ls' : List (List (Vec2 K))} {v : Vec2 K} : (ls[src]?.getD [])[n]? = some v →
      ExtendLoop src dst (n + 1) (ls.set dst ((ls[dst]?.getD []) ++ [v.copy])) ls' → ExtendLoop src dst n ls ls'

/-- `Step h stmt h'`: the statement ends (returning or raising) and turns the heap `h` into `h'`. -/
inductive Step [PyMath K] [Add K] [Sub K] [Mul K] [Div K] [Zero K] [One K] [BEq K] [LT K] [DecidableLT K] (eps : K) :
    SeqHeap K → SeqStmt K → SeqHeap K → Prop where
  /-- every statement but `extend` -/
  | exec {h h' : SeqHeap K} {s : SeqStmt K} : (∀ i j, s ≠ .extend i j) → h.exec eps s = some h' → Step eps h s h'
  /-- `array_i.extend(obj_j)` -/
  | extend {h : SeqHeap K} {i j r q : Nat} {c : SeqCls} {ls : List (List (Vec2 K))} :
      h.objs[i]? = some (.array, r) → h.objs[j]? = some (c, q) → ExtendLoop q r 0 h.lists ls →
      Step eps h (.extend i j) ⟨ls, h.objs⟩
  /-- `extend` where it is not a method, or with an object that does not exist: AttributeError or NameError -/
  | noExtend {h : SeqHeap K} {i j : Nat} : ((∀ r, h.objs[i]? ≠ some (.array, r)) ∨ h.objs[j]? = none) →
      Step eps h (.extend i j) h

/-- `Runs h prog h'`: the program ends and turns the heap `h` into `h'`. -/
inductive Runs [PyMath K] [Add K] [Sub K] [Mul K] [Div K] [Zero K] [One K] [BEq K] [LT K] [DecidableLT K] (eps : K) :
    SeqHeap K → List (SeqStmt K) → SeqHeap K → Prop where
  | nil {h : SeqHeap K} : Runs eps h [] h
  | cons {h h₁ h' : SeqHeap K} {s : SeqStmt K} {p : List (SeqStmt K)} :
      Step eps h s h₁ → Runs eps h₁ p h' → Runs eps h (s :: p) h'

end SeqHeap
end Planar
