import Verif.Model.Add
import Verif.Model.Approximate
import Verif.Model.Autodiff
import Verif.Model.BatchOps
import Verif.Model.Calls
import Verif.Model.Completion
import Verif.Model.Complex
import Verif.Model.ComplexTangent
import Verif.Model.Cost
import Verif.Model.CostTangent
import Verif.Model.Decompositions
import Verif.Model.Descent
import Verif.Model.Describe
import Verif.Model.Dispatch
import Verif.Model.Full
import Verif.Model.Gather
import Verif.Model.Gram
import Verif.Model.Indexing
import Verif.Model.Initializers
import Verif.Model.Inner
import Verif.Model.Integer
import Verif.Model.Kronecker
import Verif.Model.Losses
import Verif.Model.Matmul
import Verif.Model.Multiply
import Verif.Model.MultiplyArray
import Verif.Model.Nn
import Verif.Model.Norm
import Verif.Model.Precision
import Verif.Model.Program
import Verif.Model.Regularizers
import Verif.Model.Riemannian
import Verif.Model.Rounded
import Verif.Model.RoundedOrtho
import Verif.Model.RoundedRound
import Verif.Model.RoundedToTT
import Verif.Model.Shapes
import Verif.Model.Static
import Verif.Model.Subscript
import Verif.Model.SvdReplace
import Verif.Model.Tangent
import Verif.Model.Tape
import Verif.Model.TensorTrain
import Verif.Model.Trace
import Verif.Model.Typed
import Verif.Model.TypedApprox
import Verif.Model.TypedTangent
import Verif.Model.Variables
import Verif.Model.Weights
import Verif.Proofs.Add
import Verif.Proofs.AddN
import Verif.Proofs.AddProjected
import Verif.Proofs.AddProjectedUnbalanced
import Verif.Proofs.Assemble
import Verif.Proofs.AtItem
import Verif.Proofs.Autodiff
import Verif.Proofs.AutodiffError
import Verif.Proofs.AutodiffGrad
import Verif.Proofs.Batch
import Verif.Proofs.BatchItem
import Verif.Proofs.BatchOps
import Verif.Proofs.BestUnique
import Verif.Proofs.Bilinear
import Verif.Proofs.BilinearBatch
import Verif.Proofs.BilinearIff
import Verif.Proofs.Blk
import Verif.Proofs.Broadcast
import Verif.Proofs.Cancellation
import Verif.Proofs.ChainEntry
import Verif.Proofs.Cholesky
import Verif.Proofs.Complex
import Verif.Proofs.ComplexOrtho
import Verif.Proofs.ComplexTangent
import Verif.Proofs.Concat
import Verif.Proofs.ConstInit
import Verif.Proofs.Constructor
import Verif.Proofs.Contract
import Verif.Proofs.CoreLinear
import Verif.Proofs.Cost
import Verif.Proofs.CostForms
import Verif.Proofs.CostGreedy
import Verif.Proofs.CostMatmul
import Verif.Proofs.CostOrtho
import Verif.Proofs.CostProject
import Verif.Proofs.CostRules
import Verif.Proofs.CostTangentLower
import Verif.Proofs.Deltas
import Verif.Proofs.Dense
import Verif.Proofs.DenseMatmul
import Verif.Proofs.Descent
import Verif.Proofs.Describe
import Verif.Proofs.Described
import Verif.Proofs.DescribedAdd
import Verif.Proofs.DescribedApprox
import Verif.Proofs.DescribedBatch
import Verif.Proofs.DescribedCalls
import Verif.Proofs.DescribedDecomp
import Verif.Proofs.DescribedInit
import Verif.Proofs.DescribedItem
import Verif.Proofs.DescribedOps
import Verif.Proofs.DescribedTangent
import Verif.Proofs.Describes
import Verif.Proofs.Equivariance
import Verif.Proofs.Expr
import Verif.Proofs.ExprLaws
import Verif.Proofs.Factor
import Verif.Proofs.Frames
import Verif.Proofs.FrobNorm
import Verif.Proofs.Full
import Verif.Proofs.FullGet
import Verif.Proofs.Gap
import Verif.Proofs.GapMatrix
import Verif.Proofs.Gather
import Verif.Proofs.GatherRank
import Verif.Proofs.Gauge
import Verif.Proofs.GetItem
import Verif.Proofs.Indexing
import Verif.Proofs.IndexingLoops
import Verif.Proofs.Initializers
import Verif.Proofs.Inner
import Verif.Proofs.IntExpr
import Verif.Proofs.IntSize
import Verif.Proofs.Keeps
import Verif.Proofs.KronAlg
import Verif.Proofs.KronLaws
import Verif.Proofs.KronMap
import Verif.Proofs.KronOverflow
import Verif.Proofs.Kronecker
import Verif.Proofs.Losses
import Verif.Proofs.Matmul
import Verif.Proofs.Minimal
import Verif.Proofs.MulArray
import Verif.Proofs.Multiply
import Verif.Proofs.Norm
import Verif.Proofs.NormErr
import Verif.Proofs.Ortho
import Verif.Proofs.OrthoErr
import Verif.Proofs.OrthoErrLR
import Verif.Proofs.OrthoErrRL
import Verif.Proofs.OrthoRL
import Verif.Proofs.Pairwise
import Verif.Proofs.PairwiseMatrixIff
import Verif.Proofs.Paths
import Verif.Proofs.Prim
import Verif.Proofs.Program
import Verif.Proofs.Project
import Verif.Proofs.ProjectEin
import Verif.Proofs.ProjectMat
import Verif.Proofs.ProjectMatmul
import Verif.Proofs.ProjectMatmulIff
import Verif.Proofs.ProjectProps
import Verif.Proofs.ProjectedOn
import Verif.Proofs.QRNear
import Verif.Proofs.RProd
import Verif.Proofs.RandomInit
import Verif.Proofs.RandomMoments
import Verif.Proofs.RandomTT
import Verif.Proofs.RankSlice
import Verif.Proofs.RatSVD
import Verif.Proofs.ReduceSum
import Verif.Proofs.Remode
import Verif.Proofs.Renorm
import Verif.Proofs.Retraction
import Verif.Proofs.Round
import Verif.Proofs.RoundAbs
import Verif.Proofs.RoundContract
import Verif.Proofs.RoundErr
import Verif.Proofs.RoundErrStep
import Verif.Proofs.RoundErrTT
import Verif.Proofs.RoundForms
import Verif.Proofs.RoundFull
import Verif.Proofs.RoundItem
import Verif.Proofs.RoundLast
import Verif.Proofs.RoundNaive
import Verif.Proofs.RoundOps
import Verif.Proofs.RoundPaths
import Verif.Proofs.RoundProps
import Verif.Proofs.RoundSync
import Verif.Proofs.RoundTT
import Verif.Proofs.Rounding
import Verif.Proofs.SameLeaves
import Verif.Proofs.SameTensors
import Verif.Proofs.Scalar
import Verif.Proofs.ShapeRel
import Verif.Proofs.ShapeRelCalls
import Verif.Proofs.ShapeRelMore
import Verif.Proofs.ShapeRelOps
import Verif.Proofs.ShapeRelTangent
import Verif.Proofs.ShapeRelWeak
import Verif.Proofs.Single
import Verif.Proofs.SkewQR
import Verif.Proofs.Sparse
import Verif.Proofs.Stage
import Verif.Proofs.StageAbs
import Verif.Proofs.Static
import Verif.Proofs.StaticConstructor
import Verif.Proofs.StaticOps
import Verif.Proofs.StaticPrograms
import Verif.Proofs.Subscript
import Verif.Proofs.SubscriptCalls
import Verif.Proofs.SubscriptRanks
import Verif.Proofs.Sums
import Verif.Proofs.Svd
import Verif.Proofs.SvdNear
import Verif.Proofs.Sweep
import Verif.Proofs.TTTranspose
import Verif.Proofs.TangentAbs
import Verif.Proofs.TangentChain
import Verif.Proofs.TangentGram
import Verif.Proofs.TangentGramUnbalanced
import Verif.Proofs.TangentSpace
import Verif.Proofs.Tape
import Verif.Proofs.TapeGrad
import Verif.Proofs.TapeRL
import Verif.Proofs.ToTT
import Verif.Proofs.ToTTAbs
import Verif.Proofs.ToTTErr
import Verif.Proofs.ToTTErrMatrix
import Verif.Proofs.ToTTErrTT
import Verif.Proofs.ToTTMatrix
import Verif.Proofs.Trace
import Verif.Proofs.Transpose
import Verif.Proofs.TreeError
import Verif.Proofs.Typed
import Verif.Proofs.TypedApprox
import Verif.Proofs.TypedMixed
import Verif.Proofs.TypedMixed2
import Verif.Proofs.TypedOrtho
import Verif.Proofs.TypedPrograms
import Verif.Proofs.TypedSums
import Verif.Proofs.TypedTangent
import Verif.Proofs.Valid
import Verif.Proofs.Variables
import Verif.Proofs.WF
import Verif.Proofs.Weights
import Verif.Props.C01Full
import Verif.Props.C02Constructor
import Verif.Props.C04Add
import Verif.Props.C06Arith
import Verif.Props.C09Matmul
import Verif.Props.C100Symmetry
import Verif.Props.C11Inner
import Verif.Props.C12Gather
import Verif.Props.C13Norm
import Verif.Props.C15Shapes
import Verif.Props.C20Iff
import Verif.Props.C20Indexing
import Verif.Props.C22Accepts
import Verif.Props.C22Batch
import Verif.Props.C23Matrix
import Verif.Props.C24Init
import Verif.Props.C26Random
import Verif.Props.C27Kronecker
import Verif.Props.C29Triangle
import Verif.Props.C30Orthogonalize
import Verif.Props.C31Round
import Verif.Props.C33ToTT
import Verif.Props.C35AddN
import Verif.Props.C36ReduceSum
import Verif.Props.C37Project
import Verif.Props.C38Accepts
import Verif.Props.C38ProjectSum
import Verif.Props.C39Accepts
import Verif.Props.C39ProjectMatmul
import Verif.Props.C40AddNProjected
import Verif.Props.C40Unbalanced
import Verif.Props.C41Pairwise
import Verif.Props.C42Deltas
import Verif.Props.C43Autodiff
import Verif.Props.C48Variables
import Verif.Props.C49KerasDense
import Verif.Props.C50Regularizers
import Verif.Props.C51Closure
import Verif.Props.C52Laws
import Verif.Props.C53BatchOfOne
import Verif.Props.C54Accessors
import Verif.Props.C55SvdReplace
import Verif.Props.C56Descent
import Verif.Props.C57Losses
import Verif.Props.C58Ranks
import Verif.Props.C59Weights
import Verif.Props.C60Best
import Verif.Props.C61Completion
import Verif.Props.C62Training
import Verif.Props.C63Programs
import Verif.Props.C64Precision
import Verif.Props.C65Traced
import Verif.Props.C66Complexity
import Verif.Props.C67Complexity
import Verif.Props.C68Accuracy
import Verif.Props.C69Cancellation
import Verif.Props.C70Gaps
import Verif.Props.C70Routines
import Verif.Props.C70Ties
import Verif.Props.C71Integers
import Verif.Props.C72Tape
import Verif.Props.C73Complex
import Verif.Props.C73Project
import Verif.Props.C74SumErrors
import Verif.Props.C75DataFree
import Verif.Props.C76GatherRank
import Verif.Props.C77Metadata
import Verif.Props.C78OrthoAccuracy
import Verif.Props.C79RoundAccuracy
import Verif.Props.C80MultiplyArray
import Verif.Props.C81ToTTAccuracy
import Verif.Props.C82RandomMean
import Verif.Props.C83Dtypes
import Verif.Props.C83Sums
import Verif.Props.C84Static
import Verif.Props.C85Print
import Verif.Props.C86KronOverflow
import Verif.Props.C87MachineIntegers
import Verif.Props.C88Axes
import Verif.Props.C88Subscripts
import Verif.Props.C89Representations
import Verif.Props.C90Equivariance
import Verif.Props.C91Items
import Verif.Props.C92KroneckerLaws
import Verif.Props.C93Retraction
import Verif.Props.C94Share
import Verif.Props.C95Bounds
import Verif.Props.C95Single
import Verif.Props.C96Norms
import Verif.Props.C97Directions
import Verif.Props.C98Stability
import Verif.Props.C99Sign
import Verif.Spec.Accuracy
import Verif.Spec.AtItem
import Verif.Spec.Autodiff
import Verif.Spec.Batches
import Verif.Spec.Blocks
import Verif.Spec.Complex
import Verif.Spec.Cores
import Verif.Spec.Cost
import Verif.Spec.CxExpr
import Verif.Spec.Describe
import Verif.Spec.Described
import Verif.Spec.Draws
import Verif.Spec.ElemDist
import Verif.Spec.Entry
import Verif.Spec.Examples
import Verif.Spec.ExamplesReal
import Verif.Spec.Expr
import Verif.Spec.Fits
import Verif.Spec.IntExpr
import Verif.Spec.Interface
import Verif.Spec.Kron
import Verif.Spec.Layer
import Verif.Spec.LowerSym
import Verif.Spec.NearOrth
import Verif.Spec.NewAxis
import Verif.Spec.Norm
import Verif.Spec.Orth
import Verif.Spec.PlainCalls
import Verif.Spec.Precision
import Verif.Spec.Program
import Verif.Spec.Projected
import Verif.Spec.RankBound
import Verif.Spec.Ranks
import Verif.Spec.SameLeaves
import Verif.Spec.SameMeta
import Verif.Spec.Single
import Verif.Spec.Static
import Verif.Spec.Tangent
import Verif.Spec.Trace
import Verif.Spec.Training
import Verif.Spec.Truncation
import Verif.Spec.Typed
import Verif.Spec.Variables
import Verif.Tf.Autodiff
import Verif.Tf.Complex
import Verif.Tf.Cost
import Verif.Tf.CostLinalg
import Verif.Tf.DType
import Verif.Tf.Factor
import Verif.Tf.Gather
import Verif.Tf.Index
import Verif.Tf.Int
import Verif.Tf.Linalg
import Verif.Tf.RoundedFactor
import Verif.Tf.Rounding
import Verif.Tf.Subscript
import Verif.Tf.Tape
import Verif.Tf.Tensor
