import Verif.Model.Affine
/- Model of class BoundingBox, /repo/planar/box.py:36-261, except `to_polygon`, `fit` of a
polygon and `*` (those need polygons: see Model/BoxPoly.lean). -/
namespace Planar

/-- box.py:36-64: `_min` and `_max`. -/
structure Box (K : Type) where
  min : Vec2 K
  max : Vec2 K
  deriving Repr

namespace Box
variable {K : Type}

/-- box.py:54-62: one iteration of the loop of `_init_min_max` on the pair of corners. -/
def step [Mul K] [One K] [LT K] [DecidableLT K] (mn mx : Vec2 K) (p : Vec2 K) : Vec2 K × Vec2 K :=
  let xs : K × K :=
    if p.x < mn.x then (p.x * 1, mx.x) else if p.x > mx.x then (mn.x, p.x * 1) else (mn.x, mx.x)
  let ys : K × K :=
    if p.y < mn.y then (p.y * 1, mx.y) else if p.y > mx.y then (mn.y, p.y * 1) else (mn.y, mx.y)
  (⟨xs.1, ys.1⟩, ⟨xs.2, ys.2⟩)

/-- box.py:45-64 and 108-114: `BoundingBox(points)` / `BoundingBox.from_points(points)`. -/
def fromPoints [Mul K] [One K] [LT K] [DecidableLT K] (points : List (Vec2 K)) : Py (Box K) :=
  match points with
  | [] => .error .valueError
  | p :: ps =>
    let r := ps.foldl (fun (acc : Vec2 K × Vec2 K) q => step acc.1 acc.2 q) (p, p)
    .ok ⟨r.1.copy, r.2.copy⟩

/-- box.py:130-140: one iteration of the loop of `from_shapes`, given the shape's box. -/
def stepShape [LT K] [DecidableLT K] (mn mx : Vec2 K) (s : Box K) : Vec2 K × Vec2 K :=
  let minX := if s.min.x < mn.x then s.min.x else mn.x
  let minY := if s.min.y < mn.y then s.min.y else mn.y
  let maxX := if s.max.x > mx.x then s.max.x else mx.x
  let maxY := if s.max.y > mx.y then s.max.y else mx.y
  (⟨minX, minY⟩, ⟨maxX, maxY⟩)

/-- box.py:116-144 `from_shapes`; each shape is given by its `bounding_box`. -/
def fromShapes [Mul K] [One K] [LT K] [DecidableLT K] (shapes : List (Box K)) : Py (Box K) :=
  match shapes with
  | [] => .error .valueError
  | s :: ss =>
    let r := ss.foldl (fun (acc : Vec2 K × Vec2 K) q => stepShape acc.1 acc.2 q) (s.min, s.max)
    .ok ⟨r.1.copy, r.2.copy⟩

/-- box.py:87-90 `width`. -/
def width [Sub K] (b : Box K) : K := b.max.x - b.min.x
/-- box.py:92-95 `height`. -/
def height [Sub K] (b : Box K) : K := b.max.y - b.min.y

/-- box.py:97-100 `center`. The divisor 2.0 is a non-zero literal, so the division cannot raise. -/
def center [Add K] [Div K] [One K] (b : Box K) : Vec2 K :=
  ⟨(b.min.x + b.max.x) / (1 + 1), (b.min.y + b.max.y) / (1 + 1)⟩

/-- box.py:102-106 `is_empty`. -/
def isEmpty [Sub K] [Zero K] [BEq K] (b : Box K) : Bool :=
  (b.max - b.min).x == 0 || (b.max - b.min).y == 0

/-- box.py:146-163 `from_center`; 0.5 is `1 / (1 + 1)`. -/
def fromCenter [Add K] [Sub K] [Mul K] [Div K] [One K] [LT K] [DecidableLT K]
    (c : Vec2 K) (width height : K) : Py (Box K) :=
  let halfW := width * (1 / (1 + 1))
  let halfH := height * (1 / (1 + 1))
  fromPoints [⟨c.x - halfW, c.y - halfH⟩, ⟨c.x + halfW, c.y + halfH⟩]

/-- box.py:165-182 `inflate` with a vector. -/
def inflateV [Add K] [Sub K] [Mul K] [Div K] [One K] [LT K] [DecidableLT K]
    (b : Box K) (amount : Vec2 K) : Py (Box K) :=
  let dv0 := amount.copy
  let dv : Vec2 K := ⟨dv0.x / (1 + 1), dv0.y / (1 + 1)⟩
  fromPoints [b.min - dv, b.max + dv]

/-- box.py:165-182 `inflate` with a scalar. -/
def inflateS [Add K] [Sub K] [Mul K] [Div K] [One K] [LT K] [DecidableLT K]
    (b : Box K) (amount : K) : Py (Box K) :=
  b.inflateV ⟨amount * 1, amount * 1⟩

/-- box.py:184-193 `contains_point`. -/
def containsPoint [LT K] [LE K] [DecidableLT K] [DecidableLE K] (b : Box K) (p : Vec2 K) : Bool :=
  (b.min.x ≤ p.x && p.x < b.max.x) && (b.min.y < p.y && p.y ≤ b.max.y)

/-- box.py:202-205 `fit` of another box. -/
def fitBox [Add K] [Sub K] [Mul K] [Div K] [Zero K] [One K] [BEq K] [LT K] [DecidableLT K]
    (b shape : Box K) : Py (Box K) := do
  let rw ← pydiv b.width shape.width
  let rh ← pydiv b.height shape.height
  let scale := pymin rw rh
  fromCenter b.center (shape.width * scale) (shape.height * scale)

/-- box.py:206-211: the transform `fit` applies to any other shape. -/
def fitTransform [Add K] [Sub K] [Mul K] [Div K] [Zero K] [One K] [BEq K] [LT K] [DecidableLT K]
    (b shapeBox : Box K) : Py (Affine K) := do
  let offset := Affine.translation (b.center - shapeBox.center)
  let rw ← pydiv b.width shapeBox.width
  let rh ← pydiv b.height shapeBox.height
  return offset * Affine.scaleS (pymin rw rh)

/-- box.py:224-227 `__eq__` between boxes. -/
instance [BEq K] : BEq (Box K) := ⟨fun s o => s.min == o.min && s.max == o.max⟩

/-- box.py:232-238 `almost_equals`. -/
def almostEquals [Add K] [Sub K] [Mul K] [LT K] [DecidableLT K] (eps : K) (s o : Box K) : Bool :=
  s.min.almostEquals eps o.min && s.max.almostEquals eps o.max

end Box
end Planar
