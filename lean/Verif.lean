import Verif.Model.Dist
import Verif.Spec.Dist
import Verif.Props.Distribution
import Verif.Props.SubDistribution
import Verif.Props.Index
import Verif.Model.Memory
import Verif.Model.Retile
import Verif.Spec.Layout
import Verif.Props.Layout
import Verif.Props.Scalapack
import Verif.Props.SubTile
import Verif.Props.Retile
import Verif.Model.Async
import Verif.Spec.Seq
import Verif.Lemmas.Async
import Verif.Props.Pipeline
import Verif.Props.Determinism
import Verif.Props.SubPipeline
import Verif.Model.Grid
import Verif.Props.Grid
import Verif.Model.Init
import Verif.Props.Init
import Verif.Model.Tridiag
import Verif.Lemmas.Tridiag
import Verif.Props.BandSize
import Verif.Props.IndexVectors
import Verif.Model.Redistribute
import Verif.Lemmas.DistLists
import Verif.Lemmas.Redistribute
import Verif.Props.Redistribute
import Verif.Model.Data
import Verif.Model.Reduce
import Verif.Spec.Data
import Verif.Lemmas.Data
import Verif.Lemmas.MatrixTiles
import Verif.Props.Data
import Verif.Props.Copy
import Verif.Props.Temporary
import Verif.Props.Reduction
import Verif.Model.MatrixRef
import Verif.Props.MatrixRef
import Verif.Model.Panel
import Verif.Props.Panel
import Verif.Model.Kernels
import Verif.Spec.Kernels
import Verif.Model.Cholesky
import Verif.Lemmas.Tasks
import Verif.Lemmas.LapackExists
import Verif.Lemmas.Cholesky
import Verif.Lemmas.Adjoint
import Verif.Props.Cholesky
import Verif.Model.Triangular
import Verif.Lemmas.Triangular
import Verif.Lemmas.TriangularVariants
import Verif.Props.Triangular
import Verif.Model.Multiplication
import Verif.Props.Multiplication
import Verif.Model.Inverse
import Verif.Model.GenToStd
import Verif.Lemmas.Blocks
import Verif.Lemmas.Inverse
import Verif.Lemmas.AdjointVariants
import Verif.Lemmas.GenToStd
import Verif.Props.Inverse
import Verif.Props.GenToStd
import Verif.Spec.Spmd
import Verif.Model.Spmd
import Verif.Model.DistPanel
import Verif.Lemmas.Spmd
import Verif.Lemmas.DistPanel
import Verif.Lemmas.BroadcastPanel
import Verif.Props.Spmd
import Verif.Props.Broadcast
import Verif.Model.DistCholesky
import Verif.Spec.DistMatrix
import Verif.Lemmas.DistCholesky
import Verif.Props.DistCholesky
import Verif.Model.Norm
import Verif.Spec.DistElems
import Verif.Lemmas.Norm
import Verif.Props.Norm
import Verif.Model.Permute
import Verif.Spec.Permute
import Verif.Lemmas.Permute
import Verif.Lemmas.PackIndex
import Verif.Lemmas.Window
import Verif.Lemmas.PermuteRoute
import Verif.Lemmas.PermuteDist
import Verif.Lemmas.PermutePack
import Verif.Props.Permute
import Verif.Model.Hdf5
import Verif.Spec.Hdf5
import Verif.Lemmas.Hdf5
import Verif.Props.Hdf5
import Verif.Model.Threads
import Verif.Spec.Threads
import Verif.Lemmas.Threads
import Verif.Model.TFactor
import Verif.Spec.Householder
import Verif.Lemmas.TFactor
import Verif.Model.Views
import Verif.Props.TFactor
import Verif.Lemmas.Views
import Verif.Model.BtRedBand
import Verif.Lemmas.BtRedBand
import Verif.Props.BtRedBand
import Verif.Model.RedBand
import Verif.Spec.RedBand
import Verif.Lemmas.RedBandPanel
import Verif.Lemmas.RedBandRefl
import Verif.Lemmas.RedBandCol
import Verif.Lemmas.RedBandTrail
import Verif.Lemmas.RedBandStep
import Verif.Lemmas.RedBandLoop
import Verif.Props.RedBand
import Verif.Model.SemThreads
import Verif.Spec.SemThreads
import Verif.Lemmas.SemThreads
import Verif.Model.BandTridiag
import Verif.Spec.BandTridiag
import Verif.Lemmas.BandSem
import Verif.Lemmas.BandOrder
import Verif.Lemmas.BandRace
import Verif.Lemmas.BandLocal
import Verif.Lemmas.BandProg
import Verif.Lemmas.BandAlg
import Verif.Lemmas.BandStep
import Verif.Lemmas.BandSweep
import Verif.Lemmas.BandRun
import Verif.Lemmas.BandCopy
import Verif.Lemmas.BandFrame
import Verif.Lemmas.LarfgExists
import Verif.Props.BandTridiag
import Verif.Model.BtBandTridiag
import Verif.Spec.BtBandTridiag
import Verif.Lemmas.BtBandAlg
import Verif.Lemmas.BtBandVW
import Verif.Lemmas.BtBandT
import Verif.Lemmas.BtBandApply
import Verif.Lemmas.BtBandStep
import Verif.Lemmas.LarftExists
import Verif.Props.BtBandTridiag
import Verif.Model.Eigensolver
import Verif.Spec.Eigensolver
import Verif.Lemmas.SpectralExists
import Verif.Props.Eigensolver
import Verif.Model.GenEigensolver
import Verif.Spec.GenEigensolver
import Verif.Lemmas.CutTiles
import Verif.Lemmas.CholExists
import Verif.Props.GenEigensolver
import Verif.Spec.Rank1
import Verif.Model.Rank1
import Verif.Lemmas.Secular
import Verif.Lemmas.Rank1Run
import Verif.Lemmas.Rank1Result
import Verif.Lemmas.Laed4Exists
import Verif.Props.Rank1
import Verif.Model.Deflate
import Verif.Spec.Deflate
import Verif.Lemmas.OpNorm
import Verif.Lemmas.OpNormBlk
import Verif.Lemmas.DeflateRot
import Verif.Lemmas.DeflateLoop
import Verif.Props.Deflate
import Verif.Model.MatWin
import Verif.Model.DivConq
import Verif.Spec.DivConq
import Verif.Lemmas.MatWin
import Verif.Lemmas.DcMath
import Verif.Lemmas.DcWin
import Verif.Lemmas.DcStep1
import Verif.Lemmas.DcPart
import Verif.Lemmas.DcStep2
import Verif.Lemmas.DcStep3
import Verif.Lemmas.DcMerge
import Verif.Lemmas.DcTri
import Verif.Lemmas.DcDrive
import Verif.Lemmas.DcLeaf
import Verif.Lemmas.DcSmall
import Verif.Lemmas.Weyl
import Verif.Props.DivConq
import Verif.Model.DistAlg
import Verif.Model.DistMultiplication
import Verif.Spec.DistMul
import Verif.Lemmas.DistAlg
import Verif.Lemmas.DistView
import Verif.Lemmas.DistMultiplication
import Verif.Props.DistMultiplication
import Verif.Model.DistTriangular
import Verif.Spec.DistTri
import Verif.Lemmas.DistTriangular
import Verif.Lemmas.DistTriangularStep
import Verif.Lemmas.DistTriangularChain
import Verif.Props.DistTriangular
import Verif.Model.DistSolver
import Verif.Lemmas.DistReduce
import Verif.Lemmas.DistSolverStep
import Verif.Lemmas.DistSolverChain
import Verif.Props.DistSolver
import Verif.Model.DistHermitian
import Verif.Spec.DistHerm
import Verif.Lemmas.DistGlobal
import Verif.Lemmas.DistHermitian
import Verif.Props.DistHermitian
import Verif.Model.DistInverse
import Verif.Lemmas.DistSquare
import Verif.Lemmas.DistInverse
import Verif.Props.DistInverse
import Verif.Model.DistAssemble
import Verif.Lemmas.DistBcast2
import Verif.Lemmas.DistAssemble
import Verif.Props.DistAssemble
import Verif.Model.DistGenToStd
import Verif.Lemmas.GenToStdOrder
import Verif.Lemmas.DistGenToStd
import Verif.Props.DistGenToStd
import Verif.Model.DistElem
import Verif.Model.DistBtRedBand
import Verif.Spec.DistHolds
import Verif.Lemmas.DistElem
import Verif.Lemmas.DistElemPhase
import Verif.Lemmas.DistWin
import Verif.Lemmas.DistBtTasks
import Verif.Lemmas.DistBtPhases
import Verif.Lemmas.DistBtRedBand
import Verif.Lemmas.DistBtProps
import Verif.Props.DistBtRedBand
import Verif.Model.CApi
import Verif.Spec.CApi
import Verif.Lemmas.CApi
import Verif.Lemmas.CApi2
import Verif.Lemmas.CApi3
import Verif.Props.CApi
import Verif.Model.Ownership
import Verif.Spec.Ownership
import Verif.Lemmas.Ownership
import Verif.Lemmas.Ownership2
import Verif.Props.Ownership
import Verif.Lemmas.CollectiveList
import Verif.Model.DistRedBand
import Verif.Lemmas.DistRedGeo
import Verif.Lemmas.DistRedWin
import Verif.Lemmas.DistRedPanel
import Verif.Lemmas.DistRedPanel2
import Verif.Lemmas.DistRedPanel3
import Verif.Lemmas.DistRedIter1
import Verif.Lemmas.DistRedMirror
import Verif.Lemmas.DistRedHemm
import Verif.Lemmas.DistRedReduce
import Verif.Lemmas.DistRedHemm2
import Verif.Lemmas.DistRedHemm3
import Verif.Lemmas.DistRedHemm4
import Verif.Lemmas.DistRedTrail
import Verif.Lemmas.DistRedHer2k
import Verif.Lemmas.DistRedStep
import Verif.Lemmas.DistRedLoop
import Verif.Props.DistRedBand
import Verif.Model.DistRot
import Verif.Spec.Rotations
import Verif.Lemmas.DistRotGeo
import Verif.Lemmas.DistRotLocal
import Verif.Lemmas.DistRotStep
import Verif.Lemmas.DistRotRun
import Verif.Lemmas.DistRotProgram
import Verif.Props.DistRot
import Verif.Model.DistBtBand
import Verif.Lemmas.DistT2BOrder
import Verif.Lemmas.DistT2BBlk
import Verif.Lemmas.DistT2BGeo
import Verif.Lemmas.DistT2BTasks
import Verif.Lemmas.DistT2BTasks2
import Verif.Lemmas.DistT2BRun
import Verif.Lemmas.DistT2BStep
import Verif.Lemmas.DistT2BProgram
import Verif.Lemmas.DistT2BSigs
import Verif.Props.DistBtBand
import Verif.Model.DistPartition
import Verif.Spec.DistPartition
import Verif.Lemmas.DistPartition
import Verif.Lemmas.DistPartition2
import Verif.Lemmas.DistPartition3
import Verif.Props.DistPartition
import Verif.Model.DistRank1
import Verif.Spec.DistRank1
import Verif.Lemmas.DistRank1Local
import Verif.Lemmas.DistRank1Perm
import Verif.Lemmas.DistRank1Pairs
import Verif.Lemmas.DistRank1Run
import Verif.Lemmas.DistRank1Phases
import Verif.Props.DistRank1
import Verif.Model.SpmdLift
import Verif.Model.DistMultEvecs
import Verif.Spec.DistMultEvecs
import Verif.Lemmas.SpmdLift
import Verif.Lemmas.RefWin
import Verif.Lemmas.RefTiles
import Verif.Lemmas.RefRun
import Verif.Lemmas.MultEvecs
import Verif.Props.DistMultEvecs
import Verif.Model.DistAssembleZ
import Verif.Lemmas.AssembleZ
import Verif.Props.DistAssembleZ
import Verif.Model.DistLeaf
import Verif.Spec.DistLeaf
import Verif.Lemmas.DistLeaf
import Verif.Props.DistLeaf
import Verif.Model.SpmdEmb
import Verif.Model.DistMerge
import Verif.Spec.DistMerge
import Verif.Lemmas.SpmdEmb
import Verif.Lemmas.DistMergeMath
import Verif.Lemmas.DistMergeWin
import Verif.Lemmas.DistMergeIdx
import Verif.Lemmas.DistMergeRun
import Verif.Lemmas.DistMergeLoc
import Verif.Lemmas.DistMergePhases
import Verif.Lemmas.OrthSpectrum
import Verif.Props.DistMerge
