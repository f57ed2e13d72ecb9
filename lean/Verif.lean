import Verif.Basic
import Verif.Model.Vector
import Verif.Model.Matrix
import Verif.Spec.Linear
import Verif.Proofs.VecLemmas
import Verif.Proofs.MatLemmas
import Verif.Proofs.BlockLemmas
import Verif.Proofs.HasLemmas
import Verif.Props.Linear
import Verif.Props.BlockPermute
import Verif.Props.Aliasing
import Verif.Props.Interp
import Verif.Model.HPS
import Verif.Proofs.BlockForm
import Verif.Proofs.MergeForm
import Verif.Proofs.MergeCore
import Verif.Proofs.CoarsenForm
import Verif.Spec.Geometry
import Verif.Spec.Tree
import Verif.Spec.Glue
import Verif.Proofs.TreeInv
import Verif.Proofs.TreeStages
import Verif.Props.Merge
import Verif.Spec.Flux
import Verif.Proofs.FluxLemmas
import Verif.Proofs.Pipeline
import Verif.Proofs.Rerun
import Verif.Model.FiniteVolume
import Verif.Spec.FiniteVolume
import Verif.Proofs.FVAssemble
import Verif.Proofs.FVSolve
import Verif.Proofs.FVOperator
import Verif.Proofs.FVMax
import Verif.Props.Leaf
import Verif.Spec.Runs
import Verif.Proofs.Runs
import Verif.Proofs.LinearRuns
import Verif.Proofs.StageLemmas
import Verif.Props.Stages
import Verif.Spec.Global
import Verif.Proofs.GlobalFV
import Verif.Proofs.GlobalTree
import Verif.Props.Global
import Verif.Proofs.Rebuild
import Verif.Props.Rebuild
import Verif.Model.Quadtree
import Verif.Spec.Quadtree
import Verif.Proofs.QuadPath
import Verif.Proofs.QuadMap
import Verif.Proofs.QuadTraverse
import Verif.Proofs.QuadRep
import Verif.Proofs.QuadSerial
import Verif.Spec.Parallel
import Verif.Proofs.Parallel
import Verif.Proofs.QuadParallel
import Verif.Proofs.QuadTile
import Verif.Props.Quadtree
import Verif.Props.Parallel
import Verif.Model.MPI
import Verif.Spec.Message
import Verif.Proofs.Message
import Verif.Props.Message
import Verif.Model.Mesh
import Verif.Spec.Mesh
import Verif.Proofs.Mesh
import Verif.Props.Mesh
import Verif.Spec.Refine
import Verif.Proofs.Refine
import Verif.Props.Refine
import Verif.Model.Interpolation
import Verif.Spec.Interpolation
import Verif.Proofs.Interpolation
import Verif.Props.Interpolation
import Verif.Model.Options
import Verif.Spec.Options
import Verif.Proofs.Options
import Verif.Props.Options
import Verif.Model.App
import Verif.Spec.App
import Verif.Props.App
import Verif.Model.XML
import Verif.Spec.XML
import Verif.Proofs.XML
import Verif.Props.XML
import Verif.Model.VTK
import Verif.Spec.VTK
import Verif.Proofs.VTK
import Verif.Props.VTK
import Verif.Proofs.Linear
import Verif.Props.Exact
import Verif.Proofs.Cache
import Verif.Props.Cache
import Verif.Proofs.Singular
import Verif.Props.Singular
import Verif.Model.Number
import Verif.Spec.Number
import Verif.Proofs.Number
import Verif.Props.Number
import Verif.Proofs.VTKSession
import Verif.Props.VTKSession
import Verif.Spec.Same
import Verif.Proofs.Same
import Verif.Props.Same
import Verif.Model.Fishpack
import Verif.Proofs.Fishpack
import Verif.Props.Fishpack
import Verif.Model.D2NOptimize
import Verif.Proofs.D2NOptimize
import Verif.Props.D2NOptimize
import Verif.Model.Comm
import Verif.Spec.Comm
import Verif.Proofs.Comm
import Verif.Props.Comm
import Verif.Model.Gather
import Verif.Proofs.Gather
import Verif.Props.Gather
import Verif.Model.Petsc
import Verif.Spec.Petsc
import Verif.Proofs.Petsc
import Verif.Props.Petsc
import Verif.Model.VectorCopy
import Verif.Props.VectorCopy
import Verif.Model.ParallelHPS
import Verif.Spec.ParallelHPS
import Verif.Proofs.ParallelHPS
import Verif.Proofs.ParallelRun
import Verif.Props.ParallelHPS
import Verif.Model.Calls
import Verif.Spec.Calls
import Verif.Proofs.Calls
import Verif.Proofs.Sound
import Verif.Proofs.Shares
import Verif.Proofs.Meets
import Verif.Proofs.Alone
import Verif.Props.Calls
import Verif.Spec.Robin
import Verif.Proofs.Robin
import Verif.Proofs.RobinMax
import Verif.Props.Robin
import Verif.Model.Thermal
import Verif.Spec.Thermal
import Verif.Proofs.Heat
import Verif.Proofs.HeatError
import Verif.Proofs.Thermal
import Verif.Props.Thermal
import Verif.Spec.Smooth
import Verif.Spec.HeatEquation
import Verif.Spec.Placed
import Verif.Proofs.Taylor
import Verif.Proofs.Converge
import Verif.Proofs.MixedError
import Verif.Props.Converge
import Verif.Props.HeatConverge
import Verif.Proofs.FluxError
import Verif.Proofs.FluxConverge
import Verif.Props.FluxConverge
import Verif.Spec.Sqrt
import Verif.Spec.Report
import Verif.Model.Report
import Verif.Proofs.Report
import Verif.Props.Report
import Verif.Model.Pass
import Verif.Spec.Failure
import Verif.Proofs.Failure
import Verif.Proofs.Pass
import Verif.Props.Pass
import Verif.Props.Diagonal
import Verif.Model.Output
import Verif.Spec.Output
import Verif.Proofs.Output
import Verif.Props.Output
import Verif.Model.MeshPointers
import Verif.Spec.MeshUse
import Verif.Proofs.MeshPointers
import Verif.Props.MeshPointers
import Verif.Model.Ints
import Verif.Spec.Ints
import Verif.Proofs.Ints
import Verif.Proofs.IntMessages
import Verif.Props.Ints
import Verif.Model.Memory
import Verif.Spec.Memory
import Verif.Proofs.Memory
import Verif.Proofs.Kept
import Verif.Proofs.MemoryCount
import Verif.Props.Memory
import Verif.Model.Study
import Verif.Spec.Study
import Verif.Proofs.Scientific
import Verif.Proofs.Study
import Verif.Props.Study
import Verif.Props.FishConverge
import Verif.Model.Programs
import Verif.Props.Programs
import Verif.Model.Sweep
import Verif.Proofs.Sharp
import Verif.Props.Sweep
import Verif.Props.Stable
import Verif.Props.Flux
import Verif.Proofs.Gauss
import Verif.Props.Gauss
import Verif.Spec.Levels
import Verif.Proofs.Reaction
import Verif.Props.Damped
import Verif.Model.Logger
import Verif.Spec.Logger
import Verif.Props.Logger
import Verif.Proofs.ReactionLoad
import Verif.Props.DampedLoad
import Verif.Model.Print
import Verif.Spec.Print
import Verif.Proofs.Print
import Verif.Props.Print
import Verif.Model.Distributed
import Verif.Spec.Distributed
import Verif.Proofs.Distributed
import Verif.Props.Distributed
import Verif.Model.DistVector
import Verif.Spec.DistVector
import Verif.Proofs.DistVector
import Verif.Props.DistVector
import Verif.Model.Rounding
import Verif.Spec.Rounding
import Verif.Proofs.Rounding
import Verif.Props.Rounding
import Verif.Spec.Composite
import Verif.Proofs.Composite
import Verif.Props.Composite
import Verif.Spec.Turn
import Verif.Proofs.Turn
import Verif.Proofs.Rigid
import Verif.Proofs.Move
import Verif.Props.Move
import Verif.Spec.Mixed
import Verif.Props.Mixed
import Verif.Spec.HeatMesh
import Verif.Props.HeatMesh
import Verif.Props.HeatOutput
import Verif.Props.AdaptiveRuns
import Verif.Props.CompositeWrong
import Verif.Model.Describe
import Verif.Spec.Describe
import Verif.Props.Describe
import Verif.Model.WorldCalls
import Verif.Proofs.WorldCalls
import Verif.Proofs.WorldRuns
import Verif.Props.WorldCalls
import Verif.Spec.WorldOrder
import Verif.Proofs.WorldOrder
import Verif.Props.WorldOrder
import Verif.Proofs.WorldWhole
import Verif.Proofs.WorldSplit
import Verif.Props.WorldWhole
import Verif.Proofs.WorldCache
import Verif.Props.WorldCache
import Verif.Proofs.WorldFront
import Verif.Props.WorldFront
import Verif.Model.PetscUse
import Verif.Props.PetscUse
import Verif.Model.Plot
import Verif.Props.Plot
import Verif.Props.DescribeGrid
import Verif.Model.CommName
import Verif.Spec.CommName
import Verif.Props.CommName
import Verif.Model.StudyPlots
import Verif.Spec.StudyPlots
import Verif.Proofs.StudyPlots
import Verif.Props.StudyPlots
import Verif.Model.GridPlot
import Verif.Spec.GridPlot
import Verif.Props.GridPlot
