import Verif.Props.Bernstein
import Verif.Props.Knots
import Verif.Props.Curves
import Verif.Props.Utils
import Verif.Props.Metric
import Verif.Props.Conics
import Verif.Props.Polyline
import Verif.Props.ProjectDegree1
import Verif.Props.Planar
import Verif.Props.Polygon
import Verif.Props.Ear
import Verif.Props.EarArea
import Verif.Props.Merge
import Verif.Props.Meshgen
import Verif.Props.Mesh
import Verif.Props.Face
import Verif.Props.EdgeLoop
import Verif.Props.Plane
import Verif.Props.EarChain
import Verif.Props.FrontTrim
import Verif.Props.Quadrics
import Verif.Props.Surfaces
import Verif.Props.SurfaceDeriv
import Verif.Props.UniformClamped
import Verif.Props.Rational
import Verif.Props.Stl
import Verif.Props.Points
import Verif.Props.Join
import Verif.Props.Svg
import Verif.Props.Step
import Verif.Props.Float
import Verif.Props.FloatUtils
import Verif.Props.FloatKnots
import Verif.Props.FloatDivide
import Verif.Props.Orientation
import Verif.Props.MeshgenDistinct
import Verif.Props.MeshgenNew
import Verif.Props.Jump
import Verif.Props.FloatBSpline
import Verif.Props.SurfaceProject
import Verif.Props.RepoTests
import Verif.Props.StepRead
import Verif.Props.Files
import Verif.Props.FloatSurface
import Verif.Props.Smooth
import Verif.Props.Subdivide
import Verif.Props.Natural
import Verif.Props.Motion
import Verif.Props.MotionSpline
import Verif.Props.Variation
import Verif.Props.FloatOrient
import Verif.Props.FloatSeams
import Verif.Props.Examples
import Verif.Props.Symmetry
import Verif.Props.PathLength
import Verif.Props.FloatFinite
import Verif.Props.EarComplete
import Verif.Props.FloatEar
import Verif.Props.FaceTiling
import Verif.Props.FrontTiling
import Verif.Props.Covering
import Verif.Props.FrontPick
import Verif.Props.FrontPlanar
import Verif.Props.FrontFace
import Verif.Props.AnyView
import Verif.Props.FloatInsert
import Verif.Props.Tolerance
import Verif.Props.FloatDeriv
import Verif.Props.FloatNormal
import Verif.Props.Ulps
import Verif.Props.Text
import Verif.Props.CylinderHoles
import Verif.Props.ClosedEdges
import Verif.Props.Seam
import Verif.Props.Polyhedra
import Verif.Props.Backward
import Verif.Props.EdgeEnds
import Verif.Props.ConvexFaces
import Verif.Lemmas.Spikes
import Verif.Props.ReflexFaces
import Verif.Lemmas.F64Close
import Verif.Props.FloatFaces
import Verif.Lemmas.CornerCutting
import Verif.Props.TotalPositive
import Verif.Lemmas.CurveCuts
import Verif.Props.CurveLength
import Verif.Props.Refine
import Verif.Lemmas.Picks
import Verif.Lemmas.EdgeHull
import Verif.Lemmas.ConvexFan
import Verif.Props.CurvedFaces
import Verif.Props.SmallLoops
import Verif.Props.MarkedFaces
import Verif.Props.PatchDeviation
import Verif.Props.FloatPatch
import Verif.Model.Instances
import Verif.Model.Surface
import Verif.Props.SampleCount
import Verif.Props.PolygonDistance
import Verif.Props.SampleBSpline
import Verif.Props.SurfaceDeviation
import Verif.Props.SplineDeviation
import Verif.Props.Unique
import Verif.Props.ProjectCurve
import Verif.Props.Converge
import Verif.Props.ProjectSurface
import Verif.Props.ProjectBilinear
import Verif.Props.MeshArea
import Verif.Props.FacetNormals
import Verif.Props.SplineTangents
import Verif.Props.Watertight
import Verif.Props.MeshVolume
import Verif.Props.TurnedSurfaces
import Verif.Props.SweptSurfaces
import Verif.Props.PatchSolids
import Verif.Props.FloatMeasure
import Verif.Props.AnySolids
import Verif.Props.FloatClosed
import Verif.Props.SplineSolids
import Verif.Props.RationalClosed
import Verif.Props.RationalSolids
import Verif.Props.ProportionalSides
import Verif.Props.NurbsSolids
import Verif.Props.RationalMeasure
import Verif.Props.NurbsMeasure
