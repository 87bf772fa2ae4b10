import Verif.Lemmas.Basic
import Verif.Lemmas.CastPoly
import Verif.Lemmas.Chain
import Verif.Lemmas.ClearDouble
import Verif.Lemmas.ClearSim
import Verif.Lemmas.Convex
import Verif.Lemmas.ConvexAffine
import Verif.Lemmas.Cost
import Verif.Lemmas.CostHull
import Verif.Lemmas.CostTangents
import Verif.Lemmas.ExactDist
import Verif.Lemmas.FloatAbsorb
import Verif.Lemmas.FloatAffine
import Verif.Lemmas.FloatCentroid
import Verif.Lemmas.FloatClose
import Verif.Lemmas.FloatDist
import Verif.Lemmas.FloatError
import Verif.Lemmas.FloatFrame
import Verif.Lemmas.FloatMap
import Verif.Lemmas.FloatMult
import Verif.Lemmas.FloatProject
import Verif.Lemmas.FloatTrig
import Verif.Lemmas.FloatUnit
import Verif.Lemmas.FloatVec
import Verif.Lemmas.Grid
import Verif.Lemmas.GridHull
import Verif.Lemmas.GridMore
import Verif.Lemmas.GridPoly
import Verif.Lemmas.GridSim
import Verif.Lemmas.GridTri
import Verif.Lemmas.HullConvex
import Verif.Lemmas.HullGeom
import Verif.Lemmas.HullPartition
import Verif.Lemmas.HullRound
import Verif.Lemmas.HullScan
import Verif.Lemmas.Kept
import Verif.Lemmas.Leftmost
import Verif.Lemmas.Mutate
import Verif.Lemmas.Poly
import Verif.Lemmas.PolyState
import Verif.Lemmas.RadialNear
import Verif.Lemmas.RealBasic
import Verif.Lemmas.RectSim
import Verif.Lemmas.Rectilinear
import Verif.Lemmas.Rounded
import Verif.Lemmas.Sort
import Verif.Lemmas.Split
import Verif.Lemmas.StdModel
import Verif.Lemmas.Sweep
import Verif.Lemmas.Tangent
import Verif.Lemmas.TangentSearch
import Verif.Lemmas.Threads
import Verif.Lemmas.ThreadsMore
import Verif.Lemmas.ThreadsRely
import Verif.Lemmas.TriDouble
import Verif.Lemmas.TriLong
import Verif.Lemmas.Trigram
import Verif.Lemmas.WindAffine
import Verif.Lemmas.WindConst
import Verif.Lemmas.WindNear
import Verif.Lemmas.Writers
import Verif.Lemmas.WritersMix
import Verif.Lemmas.WritersSettle
import Verif.Lemmas.YExact
import Verif.Lemmas.YMono
import Verif.Lemmas.YNear
import Verif.Lemmas.YNearReal
import Verif.Lemmas.YTotal
import Verif.Model.Affine
import Verif.Model.Box
import Verif.Model.BoxPoly
import Verif.Model.Cache
import Verif.Model.Cost
import Verif.Model.Dispatch
import Verif.Model.Epsilon
import Verif.Model.History
import Verif.Model.Hull
import Verif.Model.Iter
import Verif.Model.Line
import Verif.Model.Mutate
import Verif.Model.Num
import Verif.Model.Operators
import Verif.Model.Polygon
import Verif.Model.PyEq
import Verif.Model.Real
import Verif.Model.Repr
import Verif.Model.Seq
import Verif.Model.SeqHeap
import Verif.Model.Tangents
import Verif.Model.Threads
import Verif.Model.Vec2
import Verif.Model.Writers
import Verif.Props.Affine
import Verif.Props.AffineMore
import Verif.Props.AllPolys
import Verif.Props.AlmostEq
import Verif.Props.AnyHistory
import Verif.Props.Box
import Verif.Props.BoxMore
import Verif.Props.BoxPolygon
import Verif.Props.BoxTransform
import Verif.Props.Cache
import Verif.Props.Centroid
import Verif.Props.Convex
import Verif.Props.ConvexContains
import Verif.Props.ConvexExact
import Verif.Props.Declared
import Verif.Props.EpsGlobals
import Verif.Props.Epsilon
import Verif.Props.EqAnswers
import Verif.Props.Equivariance
import Verif.Props.Flags
import Verif.Props.FloatAffine
import Verif.Props.FloatBox
import Verif.Props.FloatCentroid
import Verif.Props.FloatClear
import Verif.Props.FloatCompose
import Verif.Props.FloatContains
import Verif.Props.FloatFromNormal
import Verif.Props.FloatGrid
import Verif.Props.FloatHull
import Verif.Props.FloatIdentity
import Verif.Props.FloatInverse
import Verif.Props.FloatLinePoints
import Verif.Props.FloatLines
import Verif.Props.FloatParallel
import Verif.Props.FloatParts
import Verif.Props.FloatPoints
import Verif.Props.FloatProject
import Verif.Props.FloatRegular
import Verif.Props.FloatSetEnd
import Verif.Props.FloatShapes
import Verif.Props.FloatSides
import Verif.Props.FloatStar
import Verif.Props.FloatTransformLines
import Verif.Props.FloatTriangle
import Verif.Props.FloatTrig
import Verif.Props.FloatVec
import Verif.Props.Floats
import Verif.Props.Hull
import Verif.Props.HullCaps
import Verif.Props.HullDistinct
import Verif.Props.HullExact
import Verif.Props.HullLine
import Verif.Props.HullMaps
import Verif.Props.HullObject
import Verif.Props.HullOrder
import Verif.Props.HullTime
import Verif.Props.HullViolated
import Verif.Props.Images
import Verif.Props.Interrupted
import Verif.Props.Iter
import Verif.Props.Line
import Verif.Props.LineMore
import Verif.Props.LineTransform
import Verif.Props.Links
import Verif.Props.NoRaise
import Verif.Props.NoRaiseFloat
import Verif.Props.Operators
import Verif.Props.PolyEq
import Verif.Props.PolyFlags
import Verif.Props.PolyState
import Verif.Props.PyEq
import Verif.Props.Radial
import Verif.Props.RadialContains
import Verif.Props.RadialExact
import Verif.Props.RadialShape
import Verif.Props.RadialTangents
import Verif.Props.Raises
import Verif.Props.Ray
import Verif.Props.RectFloats
import Verif.Props.Rectangle
import Verif.Props.Region
import Verif.Props.Repr
import Verif.Props.ReprAll
import Verif.Props.RunningTime
import Verif.Props.Segment
import Verif.Props.Seq
import Verif.Props.SeqHeap
import Verif.Props.SeqMore
import Verif.Props.Sides
import Verif.Props.Simple
import Verif.Props.SimpleConvex
import Verif.Props.Square
import Verif.Props.StarShape
import Verif.Props.TangentTime
import Verif.Props.Tangents
import Verif.Props.Threads
import Verif.Props.Triangle
import Verif.Props.Trig
import Verif.Props.Vec
import Verif.Props.VecMore
import Verif.Props.Winding
import Verif.Props.Writers
import Verif.Spec.Along
import Verif.Spec.Area
import Verif.Spec.Between
import Verif.Spec.Circle
import Verif.Spec.Clear
import Verif.Spec.Convex
import Verif.Spec.Corners
import Verif.Spec.Double
import Verif.Spec.DoubleAffine
import Verif.Spec.DoubleCentroid
import Verif.Spec.DoubleCompose
import Verif.Spec.DoubleInverse
import Verif.Spec.DoubleSqrt
import Verif.Spec.DoubleTrig
import Verif.Spec.DoubleVec
import Verif.Spec.HullCaps
import Verif.Spec.Interrupted
import Verif.Spec.Iter
import Verif.Spec.MapLines
import Verif.Spec.NanRat
import Verif.Spec.NearPoly
import Verif.Spec.Nearest
import Verif.Spec.Operators
import Verif.Spec.Polygon
import Verif.Spec.PyEq
import Verif.Spec.PyList
import Verif.Spec.Reachable
import Verif.Spec.Rectilinear
import Verif.Spec.Rounded
import Verif.Spec.SeqHeap
import Verif.Spec.Shapes
import Verif.Spec.Simple
import Verif.Spec.Swapped
import Verif.Spec.Tolerance
import Verif.Spec.Writers
