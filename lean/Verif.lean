import Verif.Props.Octree
import Verif.Props.Fmm
import Verif.Props.Geometry
import Verif.Props.Gradient
import Verif.Props.HypGradient
import Verif.Props.Storage
import Verif.Props.Flags
import Verif.Props.Copies
import Verif.Props.Lookups
import Verif.Props.Constrained
import Verif.Props.Operator
import Verif.Props.Nodes
import Verif.Props.Boundary
import Verif.Props.Driver
import Verif.Props.Kernel
import Verif.Props.Polar
import Verif.Props.Guiggiani
import Verif.Props.NurbsCache
import Verif.Props.Domain
import Verif.Props.Block
import Verif.Props.Legendre
import Verif.Props.Multipole
import Verif.Props.Product
import Verif.Props.Assemble
import Verif.Props.Linear
import Verif.Props.FreeCoeffs
import Verif.Props.FreeTermB
import Verif.Props.FreeOrder
import Verif.Props.Errors
import Verif.Props.Pattern
import Verif.Props.Ownership
import Verif.Props.History
import Verif.Props.Singular
import Verif.Props.Hanging
import Verif.Props.Constants
import Verif.Props.Solve
import Verif.Props.Edges
import Verif.Props.SolveNeumann
import Verif.App.TwoSides
import Verif.Props.TwoSides
import Verif.Bem.Cycles
import Verif.Props.Cycles
import Verif.Props.Coincident
import Verif.Octree.Renumber
import Verif.Props.Renumber
import Verif.Props.BlockHistory
import Verif.App.Curvature
import Verif.Props.Curvature
import Verif.Props.Similar
import Verif.Props.SimilarGrad
import Verif.Props.Motion
import Verif.Bem.Plane
import Verif.Props.Plane
import Verif.Bem.PlaneFree
import Verif.Props.PlaneFree
import Verif.Props.SmallDomain
import Verif.Props.RenumberGrad
import Verif.Bem.Processes
import Verif.Props.Processes
import Verif.Props.Exact
import Verif.Props.Corner
import Verif.App.Cycles32
import Verif.Props.Cycles32
import Verif.Props.Tolerance
import Verif.Props.Adaptive
import Verif.Props.Pending
import Verif.Props.FmaParams
import Verif.Threads
import Verif.Fmm.Threads
import Verif.Fmm.ThreadsExec
import Verif.Fmm.ThreadsSetup
import Verif.Fmm.ThreadsUp
import Verif.Fmm.ThreadsDown
import Verif.Props.Threads
import Verif.App.Aspect
import Verif.Props.Aspect
import Verif.Rounding
import Verif.Fmm.Rounding
import Verif.Props.Rounding
import Verif.Mpi.Spmd
import Verif.Mpi.Sync
import Verif.Mpi.Calls
import Verif.Mpi.Run
import Verif.Mpi.Rules
import Verif.Props.Collectives
import Verif.Bem.Elements
import Verif.Props.Elements
import Verif.Props.FreeCorner
import Verif.Props.FreeWedge
import Verif.Props.FreeCornerOrder
import Verif.App.Files
import Verif.Props.Files
import Verif.App.Setup
import Verif.Props.Setup
import Verif.App.Params
import Verif.App.ParamsSpec
import Verif.Props.Params
import Verif.App.ManyEdges
import Verif.Props.ManyEdges
import Verif.Octree.Near
import Verif.Fmm.Cost
import Verif.Props.Cost
import Verif.Octree.Scale
import Verif.Fmm.Scale
import Verif.Fmm.ScaleRun
import Verif.Props.Units
import Verif.Props.Displaced
import Verif.Props.Exit
import Verif.Props.Footprint
import Verif.Props.Reverse
import Verif.Props.Convex
import Verif.Props.ConvexPlane
import Verif.Props.Symmetric
import Verif.Props.SymmetricPlane
import Verif.Props.Solvable
import Verif.Props.ConvexHanging
import Verif.Props.UnitsHanging
import Verif.Props.ExitCycles
import Verif.Props.AnyData
import Verif.Props.Balance
import Verif.Props.BalanceHanging
import Verif.Props.BalancePlane
import Verif.Props.BalanceTolerance
