import Verif.Model.BoxPoly
import Verif.Model.Seq
/- The constructor arguments printed by `repr`, as numbers. How `%r` prints a number and how the interpreter reads it
back is not modelled. (For Line, Ray and LineSegment see `reprArgs` in Model/Line.lean, for Polygon Model/Polygon.lean.) -/
namespace Planar
variable {K : Type}

/-- vector.py:70-72 `Vec2.__repr__`: `Vec2(x, y)`. -/
def Vec2.reprArgs (v : Vec2 K) : K × K := (v.x, v.y)

/-- transform.py:149-152 `Affine.__repr__`: `Affine(a, b, c, d, e, f)`, the first six of the nine items. -/
def Affine.reprArgs (T : Affine K) : List K := [T.a, T.b, T.c, T.d, T.e, T.f]

/-- box.py:240-244 `BoundingBox.__repr__`: `BoundingBox([(min x, min y), (max x, max y)])`. -/
def Box.reprArgs (b : Box K) : List (Vec2 K) := [⟨b.min.x, b.min.y⟩, ⟨b.max.x, b.max.y⟩]

/-- vector.py:938-942 `Vec2Array.__repr__`: `Vec2Array([(x, y), ...])`. -/
def Vecs.reprArgs (s : Vecs K) : List (Vec2 K) := s.map (fun v => ⟨v.x, v.y⟩)

/-- Everything the API returns as a BoundingBox: `BoundingBox(points)` and `from_points` (box.py:45-64, 108-114),
`from_shapes` (116-144), `from_center` (146-163), `inflate` (165-182), `fit` (202-205) and `*` (248-261). (The
`bounding_box` of a polygon, polygon.py:198-203, is `from_points` of its vertices: C44.) A box's corners cannot be
assigned. -/
inductive Box.Built [Add K] [Sub K] [Mul K] [Div K] [Neg K] [Zero K] [One K] [BEq K] [LT K] [LE K] [DecidableLT K]
    [DecidableLE K] : Box K → Prop where
  | points {ps b} (h : Box.fromPoints ps = .ok b) : Box.Built b
  | shapes {bs b} (hs : ∀ s ∈ bs, Box.Built s) (h : Box.fromShapes bs = .ok b) : Box.Built b
  | center {c w h b} (hb : Box.fromCenter c w h = .ok b) : Box.Built b
  | inflateV {s v b} (hs : Box.Built s) (h : s.inflateV v = .ok b) : Box.Built b
  | inflateS {s k b} (hs : Box.Built s) (h : s.inflateS k = .ok b) : Box.Built b
  | fit {s t b} (hs : Box.Built s) (ht : Box.Built t) (h : s.fitBox t = .ok b) : Box.Built b
  | mul {eps s T b} (hs : Box.Built s) (h : s.mulT eps T = .ok (.box b)) : Box.Built b

end Planar
