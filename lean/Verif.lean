import Verif.Math.ExpSecondOrder
import Verif.Math.FacetCover
import Verif.Math.Factor
import Verif.Math.Farkas
import Verif.Math.LinearOde
import Verif.Math.LipschitzCover
import Verif.Math.Lqr
import Verif.Math.MpQp
import Verif.Math.Nnls
import Verif.Math.Polytope
import Verif.Math.PowerTendsto
import Verif.Math.Qp
import Verif.Math.QuadBound
import Verif.Math.Riccati
import Verif.Math.Voronoi
import Verif.Model.Controllers
import Verif.Model.Disjunctive
import Verif.Model.Drake
import Verif.Model.DrakeProg
import Verif.Model.Dtype
import Verif.Model.Example
import Verif.Model.FeasibleSet
import Verif.Model.GeomUtils
import Verif.Model.Gurobi
import Verif.Model.Heap
import Verif.Model.Hybrid
import Verif.Model.Lib
import Verif.Model.LibInexact
import Verif.Model.LinearNotebooks
import Verif.Model.MpQP
import Verif.Model.NegIndex
import Verif.Model.NegModes
import Verif.Model.NormalizeRaise
import Verif.Model.Notebooks
import Verif.Model.Plant
import Verif.Model.Plot
import Verif.Model.Pnnls
import Verif.Model.Polyhedron
import Verif.Model.Programs
import Verif.Model.Projection
import Verif.Model.Pwa
import Verif.Model.Rounding
import Verif.Model.RoundingLoop
import Verif.Model.RoundingPwa
import Verif.Model.Symbolic
import Verif.Model.Systems
import Verif.Model.TestBounds
import Verif.Model.TestChebyshev
import Verif.Model.TestCondense
import Verif.Model.TestController
import Verif.Model.TestExplicit
import Verif.Model.TestGeomUtils
import Verif.Model.TestHybrid
import Verif.Model.TestInit
import Verif.Model.TestIntersection
import Verif.Model.TestLqr
import Verif.Model.TestMcais
import Verif.Model.TestParametric
import Verif.Model.TestPrograms
import Verif.Model.TestRedundant
import Verif.Model.TestRemoveEqualities
import Verif.Model.TestRows
import Verif.Model.TestSets
import Verif.Model.TestSolvers
import Verif.Model.TestSuite
import Verif.Model.TestVectors
import Verif.Model.TestVertices
import Verif.Model.TestWellPosed
import Verif.Model.UrdfNotebook
import Verif.Model.Voronoi
import Verif.Np.Array
import Verif.Np.Lemmas
import Verif.Np.Py
import Verif.Proofs.Blocks
import Verif.Proofs.Condense
import Verif.Proofs.Drake
import Verif.Proofs.DrakeFill
import Verif.Proofs.DrakeProg
import Verif.Proofs.Entries
import Verif.Proofs.ExampleBuild
import Verif.Proofs.ExampleGraph
import Verif.Proofs.ExampleSolve
import Verif.Proofs.GeomUtils
import Verif.Proofs.Gurobi
import Verif.Proofs.GurobiAnswer
import Verif.Proofs.GurobiDrop
import Verif.Proofs.GurobiExists
import Verif.Proofs.Hybrid
import Verif.Proofs.HybridBigM
import Verif.Proofs.HybridBuild
import Verif.Proofs.HybridCondense
import Verif.Proofs.HybridLoop
import Verif.Proofs.HybridOpt
import Verif.Proofs.HybridStage
import Verif.Proofs.HybridTiny
import Verif.Proofs.HybridUnpack
import Verif.Proofs.Interval
import Verif.Proofs.KKTNec
import Verif.Proofs.LP
import Verif.Proofs.LPInexact
import Verif.Proofs.LPMain
import Verif.Proofs.LibExists
import Verif.Proofs.LinOcp
import Verif.Proofs.Mcais
import Verif.Proofs.MpQP
import Verif.Proofs.MpQPFree
import Verif.Proofs.MpQPRegion
import Verif.Proofs.MpQPSolve
import Verif.Proofs.Mpc
import Verif.Proofs.Notebooks
import Verif.Proofs.Ocp
import Verif.Proofs.PlotPoly
import Verif.Proofs.Pnnls
import Verif.Proofs.PolyBounded
import Verif.Proofs.PolyChebyshev
import Verif.Proofs.PolyEmpty
import Verif.Proofs.PolyQueries
import Verif.Proofs.PolyReduce
import Verif.Proofs.PolySweep
import Verif.Proofs.Polygon
import Verif.Proofs.Polyhedron
import Verif.Proofs.Projection
import Verif.Proofs.ProjectionLoop
import Verif.Proofs.ProjectionMethod
import Verif.Proofs.QP
import Verif.Proofs.QPInexact
import Verif.Proofs.QPMain
import Verif.Proofs.QhullExists
import Verif.Proofs.Symbolic
import Verif.Proofs.Vertices
import Verif.Proofs.Voronoi
import Verif.Props.BoundsTest
import Verif.Props.ChebyshevTest
import Verif.Props.CondenseTest
import Verif.Props.CondensedOcp
import Verif.Props.Controllable
import Verif.Props.ControllableTest
import Verif.Props.ControllerSizes
import Verif.Props.ControllerTest
import Verif.Props.ControllerTestFalse
import Verif.Props.Discretization
import Verif.Props.DiscretizationTest
import Verif.Props.Disjunctive
import Verif.Props.DisjunctiveNotebook
import Verif.Props.DrakeProg
import Verif.Props.Dtype
import Verif.Props.DtypeRows
import Verif.Props.DtypeRowsInt
import Verif.Props.Equalities
import Verif.Props.EulerConvergence
import Verif.Props.Example
import Verif.Props.ExampleFalse
import Verif.Props.ExplicitTest
import Verif.Props.FeasibleSet
import Verif.Props.FloatBounds
import Verif.Props.GeomUtils
import Verif.Props.GeomUtilsTest
import Verif.Props.Guards
import Verif.Props.Heap
import Verif.Props.Hybrid
import Verif.Props.HybridBigM
import Verif.Props.HybridDeadZone
import Verif.Props.HybridDesign
import Verif.Props.HybridDesignExample
import Verif.Props.HybridDrop
import Verif.Props.HybridEqualities
import Verif.Props.HybridExamples
import Verif.Props.HybridExponential
import Verif.Props.HybridHorizon
import Verif.Props.HybridLoop
import Verif.Props.HybridLoopExamples
import Verif.Props.HybridLoopFalse
import Verif.Props.HybridModes
import Verif.Props.HybridSizes
import Verif.Props.HybridTest
import Verif.Props.HybridValue
import Verif.Props.InexactExamples
import Verif.Props.InexactFacets
import Verif.Props.InexactLp
import Verif.Props.InexactPoly
import Verif.Props.InexactQp
import Verif.Props.InitTest
import Verif.Props.IntersectionTest
import Verif.Props.LinearNotebooks
import Verif.Props.LpSolverTest
import Verif.Props.Lqr
import Verif.Props.LqrTest
import Verif.Props.LqrTestFalse
import Verif.Props.Mcais
import Verif.Props.McaisInvariant
import Verif.Props.McaisLoopBound
import Verif.Props.McaisTermination
import Verif.Props.McaisTest
import Verif.Props.MiDrop
import Verif.Props.MiSolve
import Verif.Props.MpQPAll
import Verif.Props.MpQPAllExample
import Verif.Props.MpQPAllFalse
import Verif.Props.MpQPAllMany
import Verif.Props.MpQPAllManyExample
import Verif.Props.MpQPCoverage
import Verif.Props.MpQPCoverageExample
import Verif.Props.MpQPExplicit
import Verif.Props.MpQPGuess
import Verif.Props.MpQPInexact
import Verif.Props.MpQPLipschitz
import Verif.Props.MpQPLoop
import Verif.Props.MpQPNeighbours
import Verif.Props.MpQPNeighboursExample
import Verif.Props.MpQPOverlap
import Verif.Props.MpQPRaises
import Verif.Props.MpQPRaisesMany
import Verif.Props.MpQPSearch
import Verif.Props.MpQPSolution
import Verif.Props.MpQPTolerance
import Verif.Props.Mpc
import Verif.Props.MpcConvex
import Verif.Props.MpcExamples
import Verif.Props.MpcExplicit
import Verif.Props.MpcExplicitFalse
import Verif.Props.MpcExplicitLoop
import Verif.Props.MpcExponential
import Verif.Props.MpcHorizon
import Verif.Props.MpcInexact
import Verif.Props.MpcInfinite
import Verif.Props.MpcLipschitz
import Verif.Props.MpcLqrGap
import Verif.Props.MpcRobust
import Verif.Props.MpcStability
import Verif.Props.MpcStabilityCounter
import Verif.Props.MpcStabilityExamples
import Verif.Props.MpcTerminal
import Verif.Props.NegIndex
import Verif.Props.NegModes
import Verif.Props.NormalizeRaise
import Verif.Props.NotebookDesign
import Verif.Props.Notebooks
import Verif.Props.ParametricTest
import Verif.Props.Plant
import Verif.Props.Plot
import Verif.Props.PlotControl
import Verif.Props.PlotErrors
import Verif.Props.PlotPoly
import Verif.Props.PlotRange
import Verif.Props.PlotTime
import Verif.Props.PolyhedronBall
import Verif.Props.PolyhedronBallNone
import Verif.Props.PolyhedronBasic
import Verif.Props.PolyhedronBounded
import Verif.Props.PolyhedronCache
import Verif.Props.PolyhedronIdempotent
import Verif.Props.PolyhedronRedundancy
import Verif.Props.PolyhedronSets
import Verif.Props.PolyhedronTests
import Verif.Props.Programs
import Verif.Props.ProgramsTest
import Verif.Props.Projection
import Verif.Props.ProjectionFalse
import Verif.Props.PwaSystem
import Verif.Props.PwaWellPosed
import Verif.Props.QpSolverTest
import Verif.Props.RedundancyBound
import Verif.Props.RedundantTest
import Verif.Props.RejectedRows
import Verif.Props.RemoveEqualitiesTest
import Verif.Props.Riccati
import Verif.Props.RoundedContains
import Verif.Props.RoundedExplicit
import Verif.Props.RoundedLoop
import Verif.Props.RoundedNormalize
import Verif.Props.RoundedPwa
import Verif.Props.RoundedSimulation
import Verif.Props.RowsTest
import Verif.Props.SameVectors
import Verif.Props.SetsTest
import Verif.Props.Simulation
import Verif.Props.SolverSizes
import Verif.Props.Solvers
import Verif.Props.Symbolic
import Verif.Props.UncondensedTest
import Verif.Props.UrdfNotebook
import Verif.Props.VectorsTest
import Verif.Props.Vertices
import Verif.Props.VerticesTest
import Verif.Props.Voronoi
import Verif.Props.WellPosedTest
import Verif.Spec.Contact
import Verif.Spec.Control
import Verif.Spec.Corners
import Verif.Spec.Disjunctive
import Verif.Spec.Drawing
import Verif.Spec.Dyn
import Verif.Spec.Expr
import Verif.Spec.Geom
import Verif.Spec.Hull
import Verif.Spec.Hybrid
import Verif.Spec.HybridLoop
import Verif.Spec.MpQp
import Verif.Spec.NearActive
import Verif.Spec.Opt
import Verif.Spec.Rounding
import Verif.Spec.Voronoi
