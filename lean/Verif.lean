import Verif.Go.Res
import Verif.Go.Scalar
import Verif.Go.F64
import Verif.Proofs.F64
import Verif.Go.Map
import Verif.Go.Str
import Verif.Model.R3
import Verif.Model.Predicates
import Verif.Model.Tri2Util
import Verif.Model.Hull
import Verif.Model.Delaunator
import Verif.Model.Tri3
import Verif.Model.Meshing
import Verif.Model.Nurbs
import Verif.Model.Shape
import Verif.Model.Step
import Verif.Props.R3
import Verif.Props.R3Float
import Verif.Props.Predicates
import Verif.Props.Tri2Util
import Verif.Proofs.Str
import Verif.Props.StepText
import Verif.Props.StepLex
import Verif.Props.StepParse
import Verif.Proofs.Slice
import Verif.Proofs.Core
import Verif.Proofs.Walk
import Verif.Proofs.Insert
import Verif.Proofs.AddTri
import Verif.Proofs.Legalize
import Verif.Proofs.HalfEdge
import Verif.Spec.BSpline
import Verif.Props.Nurbs
import Verif.Props.NurbsDers
import Verif.Props.Shape
import Verif.Props.ShapeMesh
import Verif.Props.Tri3
import Verif.Props.Meshing
import Verif.Props.BowyerWatson
import Verif.Props.Hull
import Verif.Proofs.MeshSum
import Verif.Props.Delaunator
import Verif.Proofs.Seeds
import Verif.Proofs.Exact
import Verif.Props.DelaunatorExact
import Verif.Proofs.DelGeom
import Verif.Proofs.DelTable
import Verif.Proofs.DelRing
import Verif.Proofs.DelCover
import Verif.Proofs.DelTile
import Verif.Spec.Delaunay
import Verif.Props.Delaunay
import Verif.Props.DelaunayFlip
import Verif.Props.Validate
import Verif.Props.UtilFloat
import Verif.Props.InSphereFloat
import Verif.Proofs.Fuel
import Verif.Props.DelaunatorFloat
import Verif.Proofs.AnyOracle
import Verif.Props.DelaunatorOracle
import Verif.Props.HullStrict
import Verif.Props.HullAgree
import Verif.Props.DelaunatorSeed
import Verif.Proofs.CoreMap
import Verif.Proofs.GridFloat
import Verif.Proofs.GridSeeds
import Verif.Proofs.GridSort
import Verif.Proofs.GridRun
import Verif.Proofs.HullFloat
import Verif.Proofs.HullLength
import Verif.Proofs.GridValidate
import Verif.Props.HullFloat
import Verif.Props.DelaunatorGrid
import Verif.Props.DelaunayUnique
import Verif.Proofs.SignRun
import Verif.Proofs.Margin
import Verif.Props.DelaunatorSigns
import Verif.Proofs.NurbsFloat
import Verif.Props.NurbsFloat
import Verif.Props.Checked
import Verif.Proofs.NormFloat
import Verif.Props.NormFloat
import Verif.Proofs.VolFloat
import Verif.Props.VolFloat
import Verif.Props.EnglobeFloat
import Verif.Props.HullMargin
import Verif.Props.LineFloat
import Verif.Proofs.ValidateFloat
import Verif.Props.ValidateFloat
import Verif.Proofs.CircumFloat
import Verif.Proofs.SeedMargin
import Verif.Props.WellSpread
import Verif.Proofs.AnyDiv
import Verif.Props.AnyDiv
import Verif.Model.Bufio
import Verif.Props.StepRead
import Verif.RepoTests
import Verif.Go.F32
import Verif.Props.Export32
import Verif.Proofs.ShapeFloat
import Verif.Props.ShapeFloat
import Verif.Props.BowyerFloat
import Verif.Model.StepJob
import Verif.Props.StepJob
import Verif.Proofs.ScaleFloat
import Verif.Proofs.TriSame
import Verif.Props.UnitOrigin
import Verif.Model.Delaunator64
import Verif.Model.Nurbs64
import Verif.Proofs.Wrap
import Verif.Props.Overflow
import Verif.Proofs.Quarter
import Verif.Props.NearestFloat
import Verif.Model.HashSize
import Verif.Props.HashSize
import Verif.Props.GridBound
import Verif.Model.Ints64
import Verif.Props.Ints64
import Verif.Go.Fma
import Verif.Model.Fused
import Verif.Props.FusedSphere
import Verif.Props.Fused
import Verif.Props.Axes
import Verif.Model.Work
import Verif.Proofs.Work
import Verif.Proofs.WorkCount
import Verif.Props.Work
import Verif.Model.Steps
import Verif.Props.Steps
import Verif.Proofs.MidOrder
import Verif.Proofs.MidFloat
import Verif.Proofs.MidCentre
import Verif.Proofs.MidRun
import Verif.Props.DelaunatorMid
import Verif.Proofs.MidScale
import Verif.Props.DelaunatorDyadic
import Verif.Props.DyadicCalls
import Verif.Props.Outward
import Verif.Props.Fan
import Verif.Proofs.Spline
import Verif.Props.Smooth
import Verif.Props.Approx
import Verif.Props.Edges
import Verif.Props.Angles
import Verif.Props.CurveShape
import Verif.Props.Extremes
import Verif.Props.PlaneGraph
import Verif.Props.FaceCount
import Verif.Props.Covering
import Verif.Props.CoverAll
import Verif.Props.Fence
import Verif.Props.Crossings
import Verif.Props.Turns
import Verif.Model.FusedHull
import Verif.Props.FusedHull
import Verif.Model.FusedNurbs
import Verif.Proofs.FusedNurbs
import Verif.Props.FusedNurbs
import Verif.Props.FloatCurve
import Verif.Props.FusedShape
import Verif.Props.FusedOutward
import Verif.Model.FusedLine
import Verif.Props.FusedLine
import Verif.Model.FusedNearest
import Verif.Props.FusedNearest
import Verif.Model.FusedTetra
import Verif.Props.FusedTetra
