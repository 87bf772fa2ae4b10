import Verif.Model.Polygon
import Verif.Model.Line
/- What an object may look like when an assignment is interrupted: every attribute is as before or as after. -/
namespace Planar
variable {K : Type}

/-- Every cached attribute of `u` is that of `s` or that of `f`. -/
structure Polygon.CachesBetween (s f u : Polygon K) : Prop where
  convex : u.convex = s.convex ∨ u.convex = f.convex
  simple : u.simple = s.simple ∨ u.simple = f.simple
  yPolylines : u.yPolylines = s.yPolylines ∨ u.yPolylines = f.yPolylines
  dupeVerts : u.dupeVerts = s.dupeVerts ∨ u.dupeVerts = f.dupeVerts
  degenerate : u.degenerate = s.degenerate ∨ u.degenerate = f.degenerate
  bbox : u.bbox = s.bbox ∨ u.bbox = f.bbox
  centroid : u.centroid = s.centroid ∨ u.centroid = f.centroid
  maxR : u.maxR = s.maxR ∨ u.maxR = f.maxR
  maxR2 : u.maxR2 = s.maxR2 ∨ u.maxR2 = f.maxR2
  minR : u.minR = s.minR ∨ u.minR = f.minR
  minR2 : u.minR2 = s.minR2 ∨ u.minR2 = f.minR2
  triTest : u.triTest = s.triTest ∨ u.triTest = f.triTest

/-- Direction and normal of `u` are those of `s` or those of `f`. -/
structure Lin.Between (s f u : Lin K) : Prop where
  direction : u.direction = s.direction ∨ u.direction = f.direction
  normal : u.normal = s.normal ∨ u.normal = f.normal

/-- Every attribute of the line `u` is that of `s` or that of `f`. -/
def Line.Between (s f u : Line K) : Prop :=
  s.toLin.Between f.toLin u.toLin ∧ (u.offset = s.offset ∨ u.offset = f.offset)

/-- Every attribute of the ray `u` is that of `s` or that of `f`. -/
def Ray.Between (s f u : Ray K) : Prop :=
  s.toLin.Between f.toLin u.toLin ∧ (u.anchor = s.anchor ∨ u.anchor = f.anchor)

/-- Every attribute of the segment `u` is that of `s` or that of `f`. -/
def LineSegment.Between (s f u : LineSegment K) : Prop :=
  s.toLin.Between f.toLin u.toLin ∧ (u.anchor = s.anchor ∨ u.anchor = f.anchor) ∧
    (u.length = s.length ∨ u.length = f.length)

/-- The first `j` points have been transformed. -/
def mixed [Add K] [Mul K] [One K] (T : Affine K) (vs : List (Vec2 K)) (j : Nat) : List (Vec2 K) :=
  (vs.take j).map T.apply ++ vs.drop j

end Planar
