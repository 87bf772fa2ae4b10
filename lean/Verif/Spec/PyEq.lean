import Verif.Model.PyEq
/- Specification for C73: which objects can be keys of a dict, and which objects raise KeyError when asked for an item. -/
namespace Planar.Spec
variable {K : Type}

/-- Numbers, vectors, transforms and tuples of such. -/
inductive Keyable : Obj K → Prop where
  | num (k : K) : Keyable (.num k)
  | vec (v : Vec2 K) : Keyable (.vec v)
  | affine (T : Affine K) : Keyable (.affine T)
  | tuple (l : List (Obj K)) : (∀ o ∈ l, Keyable o) → Keyable (.tuple l)

/-- Objects without a foreign object inside that raises KeyError for `[0]`, `[1]` or `len()` (as a dict does). -/
inductive Tame : Obj K → Prop where
  | num (k : K) : Tame (.num k)
  | vec (v : Vec2 K) : Tame (.vec v)
  | affine (T : Affine K) : Tame (.affine T)
  | tuple (l : List (Obj K)) : (∀ o ∈ l, Tame o) → Tame (.tuple l)
  | list (l : List (Obj K)) : (∀ o ∈ l, Tame o) → Tame (.list l)
  | seq (c : SeqCls) (vs : List (Vec2 K)) : Tame (.seq c vs)
  | box (b : Box K) : Tame (.box b)
  | line (l : Line K) : Tame (.line l)
  | ray (r : Ray K) : Tame (.ray r)
  | segment (s : LineSegment K) : Tame (.segment s)
  | foreign (id : Nat) (a b : Except ItemErr (Option K)) (n : Except ItemErr Nat) : a ≠ .error .keyError →
      b ≠ .error .keyError → n ≠ .error .keyError → Tame (.foreign id a b n)

end Planar.Spec
