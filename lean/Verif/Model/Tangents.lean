import Verif.Model.Polygon
/- Tangents to a polygon, /repo/planar/polygon.py:690-817. -/
namespace Planar.Polygon
variable {K : Type} [Add K] [Sub K] [Mul K] [Zero K] [One K] [BEq K] [LT K] [LE K] [DecidableLT K]
  [DecidableLE K]

/-- `(v1 - v0) x (p - v0)` as written in polygon.py:702 and 706. -/
def turn (p v0 v1 : Vec2 K) : K := (v1.x - v0.x)*(p.y - v0.y) - (p.x - v0.x)*(v1.y - v0.y)

/-- polygon.py:705-717 the loop of `_pt_tangents`. -/
def tangentsLoop (p : Vec2 K) : List (Vec2 K) → (v0 : Vec2 K) → (prevTurn : K) →
    (left right : Vec2 K) → Vec2 K × Vec2 K
  | [], _, _, left, right => (left, right)
  | v1 :: rest, v0, prevTurn, left, right =>
    let nextTurn := turn p v0 v1
    if prevTurn ≤ 0 ∧ nextTurn > 0 then
      let right := if (v0.x - p.x)*(right.y - p.y) - (right.x - p.x)*(v0.y - p.y) ≥ 0 then v0.copy
        else right
      tangentsLoop p rest v1 nextTurn left right
    else if prevTurn > 0 ∧ nextTurn ≤ 0 then
      let left := if (v0.x - p.x)*(left.y - p.y) - (left.x - p.x)*(v0.y - p.y) ≤ 0 then v0.copy
        else left
      tangentsLoop p rest v1 nextTurn left right
    else tangentsLoop p rest v1 nextTurn left right

/-- polygon.py:693-718 `_pt_tangents`. -/
def ptTangents (verts : List (Vec2 K)) (p : Vec2 K) : Py (Vec2 K × Vec2 K) := do
  let first ← pyGet verts 0
  let v0 ← pyGet verts (-2)
  let v1 ← pyGet verts (-1)
  return tangentsLoop p verts v1 (turn p v0 v1) first first

/-- polygon.py:720-724 `_pt_above`. -/
def ptAbove (p a b : Vec2 K) : Bool := (a.x - p.x)*(b.y - p.y) - (b.x - p.x)*(a.y - p.y) > 0
/-- polygon.py:726-730 `_pt_below`. -/
def ptBelow (p a b : Vec2 K) : Bool := (a.x - p.x)*(b.y - p.y) - (b.x - p.x)*(a.y - p.y) < 0

/-- polygon.py:747-764 the loop of `_left_tan_i_convex`. Reads in the order of the code; a bad index
is an IndexError. Python's `//` on ints is floor division. -/
def leftTanLoop (verts : List (Vec2 K)) (p : Vec2 K) : (limit : Nat) → (a b : Int) → Py Int
  | 0, a, _ => .ok a
  | limit + 1, a, b => do
    let c := (a + b) / 2
    let vc1 ← pyGet verts (c + 1)
    let vc ← pyGet verts c
    let downC := ptBelow p vc1 vc
    let vcm ← pyGet verts (c - 1)
    if !downC && ptAbove p vcm vc then return c
    let va1 ← pyGet verts (a + 1)
    let va ← pyGet verts a
    if ptBelow p va1 va then
      if !downC || ptBelow p va vc then leftTanLoop verts p limit a c
      else leftTanLoop verts p limit c b
    else
      if downC || !ptAbove p va vc then leftTanLoop verts p limit c b
      else leftTanLoop verts p limit a c

/-- polygon.py:732-764 `_left_tan_i_convex`. -/
def leftTan (verts : List (Vec2 K)) (p : Vec2 K) : Py Int := do
  let v0 ← pyGet verts 0
  let vl ← pyGet verts (-1)
  let vl2 ← pyGet verts (-2)
  if !ptBelow p v0 vl && ptAbove p vl2 vl then return -1
  leftTanLoop verts p verts.length (-1) (verts.length - 1)

/-- polygon.py:781-798 the loop of `_right_tan_i_convex`. -/
def rightTanLoop (verts : List (Vec2 K)) (p : Vec2 K) : (limit : Nat) → (a b : Int) → Py Int
  | 0, a, _ => .ok a
  | limit + 1, a, b => do
    let c := (a + b) / 2
    let vc1 ← pyGet verts (c + 1)
    let vc ← pyGet verts c
    let downC := ptBelow p vc1 vc
    let vcm ← pyGet verts (c - 1)
    if downC && !ptAbove p vcm vc then return c
    let va1 ← pyGet verts (a + 1)
    let va ← pyGet verts a
    if ptAbove p va1 va then
      if downC || ptAbove p va vc then rightTanLoop verts p limit a c
      else rightTanLoop verts p limit c b
    else
      if !downC || !ptBelow p va vc then rightTanLoop verts p limit c b
      else rightTanLoop verts p limit a c

/-- polygon.py:766-798 `_right_tan_i_convex`. -/
def rightTan (verts : List (Vec2 K)) (p : Vec2 K) : Py Int := do
  let v0 ← pyGet verts 0
  let vl ← pyGet verts (-1)
  let vl2 ← pyGet verts (-2)
  if ptBelow p v0 vl && !ptAbove p vl2 vl then return -1
  rightTanLoop verts p verts.length (-1) (verts.length - 1)

/-- polygon.py:800-817 `tangents_to_point`. `not self._dupe_verts` is False for the `_unknown`
marker (an ordinary object is truthy). Returns the polygon afterwards (`is_convex` may be cached). -/
def tangentsToPoint (s : Polygon K) (p : Vec2 K) : Py (Vec2 K × Vec2 K) × Polygon K :=
  if s.verts.length > 20 then
    let r := s.isConvex
    let s := r.2
    if r.1 && !(s.dupeVerts.getD true) then
      (do
        let l ← leftTan s.verts p
        let lv ← pyGet s.verts l
        let r ← rightTan s.verts p
        let rv ← pyGet s.verts r
        return (lv, rv), s)
    else (ptTangents s.verts p, s)
  else (ptTangents s.verts p, s)

end Planar.Polygon
