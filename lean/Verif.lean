import Verif.Props.Reductions
import Verif.Props.LogSumExp
import Verif.Props.Postprocess
import Verif.Props.Ranges
import Verif.Props.Gpu2D
import Verif.Props.Simplify
import Verif.Props.Diff
import Verif.Props.Linear
import Verif.Props.Factorize
import Verif.Props.FormulaCode
import Verif.Props.EndToEnd
import Verif.Props.EndToEndBatch
import Verif.Props.EndToEndRows
import Verif.Props.Cluster
import Verif.Props.Options
import Verif.Props.Half
import Verif.Props.HalfBatch
import Verif.Props.Aliases
import Verif.Props.Call
import Verif.Props.Lazy
import Verif.Props.LazyShape
import Verif.Props.LazyTranspose
import Verif.Props.LazySum
import Verif.Model.RedDiff
import Verif.Spec.RedDiff
import Verif.Proofs.RedDiff
import Verif.Props.RedDiff
import Verif.Model.Backward
import Verif.Spec.Backward
import Verif.Proofs.Backward
import Verif.Props.Backward
import Verif.Model.Cg
import Verif.Spec.Cg
import Verif.Proofs.Cg
import Verif.Props.Cg
import Verif.Spec.SolveGrad
import Verif.Proofs.SolveGrad
import Verif.Props.SolveGrad
import Verif.Model.Layout
import Verif.Props.Layout
import Verif.Model.Names
import Verif.Props.Names
import Verif.Model.Cache
import Verif.Spec.Cache
import Verif.Proofs.Cache
import Verif.Proofs.CacheInv
import Verif.Props.Cache
import Verif.Model.Build
import Verif.Spec.Build
import Verif.Props.Build
import Verif.Model.Tensor
import Verif.Spec.Tensor
import Verif.Proofs.TensorList
import Verif.Proofs.TensorSum
import Verif.Proofs.Tensor
import Verif.Proofs.TensorOp
import Verif.Proofs.Kron
import Verif.Props.Tensor
import Verif.Model.Complex
import Verif.Spec.Complex
import Verif.Proofs.Complex
import Verif.Proofs.ComplexDiff
import Verif.Proofs.ComplexGrad
import Verif.Proofs.ComplexTotal
import Verif.Proofs.ComplexCode
import Verif.Props.Complex
import Verif.Model.BSpline
import Verif.Spec.BSpline
import Verif.Proofs.BSpline
import Verif.Props.BSpline
import Verif.Model.SoftDTW
import Verif.Spec.SoftDTW
import Verif.Proofs.SoftDTW
import Verif.Proofs.SoftDTWGrad
import Verif.Props.SoftDTW
import Verif.Model.Chunks
import Verif.Spec.Chunks
import Verif.Proofs.ChunkFormula
import Verif.Proofs.ChunkSum
import Verif.Proofs.ChunkBuffers
import Verif.Proofs.ChunkConsts
import Verif.Proofs.ChunkKernel
import Verif.Props.Chunks
import Verif.Model.ChunksRanges
import Verif.Proofs.ChunksRanges
import Verif.Props.ChunksRanges
import Verif.Model.FinalChunks
import Verif.Spec.FinalChunks
import Verif.Proofs.FinalChunks
import Verif.Props.FinalChunks
import Verif.Model.FinalChunksRanges
import Verif.Proofs.FinalChunksRanges
import Verif.Props.FinalChunksRanges
import Verif.Model.Backend
import Verif.Proofs.Backend
import Verif.Props.Backend
import Verif.Model.Staging
import Verif.Proofs.Staging
import Verif.Props.Staging
import Verif.Model.Parse
import Verif.Spec.Methods
import Verif.Model.Methods
import Verif.Proofs.Parse
import Verif.Proofs.Methods
import Verif.Proofs.MethodsOps
import Verif.Proofs.MethodsCall
import Verif.Props.Methods
import Verif.Spec.LazyCall
import Verif.Model.LazyCall
import Verif.Props.LazyCall
import Verif.Spec.MethodsRed
import Verif.Model.MethodsRed
import Verif.Proofs.MethodsRed
import Verif.Props.MethodsRed
import Verif.Props.MethodsFit
import Verif.Spec.MethodsBatch
import Verif.Proofs.MethodsBatch
import Verif.Props.MethodsBatch
import Verif.Proofs.SmoothNear
import Verif.Model.BackwardCall
import Verif.Spec.BackwardCall
import Verif.Proofs.BackwardCall
import Verif.Props.BackwardCall
import Verif.Proofs.BackwardBatch
import Verif.Props.BackwardBatch
import Verif.Props.BackwardLse
import Verif.Props.Zero
import Verif.Props.Routines
import Verif.Model.JvpCall
import Verif.Spec.JvpCall
import Verif.Proofs.JvpCall
import Verif.Props.JvpCall
import Verif.Props.JvpLse
import Verif.Model.Concurrent
import Verif.Spec.Concurrent
import Verif.Proofs.Concurrent
import Verif.Props.Concurrent
import Verif.Model.ComplexLazy
import Verif.Spec.ComplexLazy
import Verif.Proofs.ComplexLazy
import Verif.Proofs.ComplexLazyTotal
import Verif.Props.ComplexLazy
import Verif.Model.LazySolve
import Verif.Proofs.LazySolve
import Verif.Props.LazySolve
import Verif.Model.Precision
import Verif.Spec.Precision
import Verif.Proofs.Precision
import Verif.Props.Precision
import Verif.Model.CodeTypes
import Verif.Spec.CodeTypes
import Verif.Proofs.CodeTypes
import Verif.Props.CodeTypes
import Verif.Model.RoundedSum
import Verif.Spec.RoundedSum
import Verif.Proofs.Rounding
import Verif.Proofs.RoundedSum
import Verif.Props.RoundedSum
import Verif.Spec.Rename
import Verif.Proofs.Rename
import Verif.Props.Rename
import Verif.Model.GradMatrix
import Verif.Proofs.GradMatrix
import Verif.Props.GradMatrix
import Verif.Model.LazySymb
import Verif.Props.LazySymb
import Verif.Props.RenameCall
import Verif.Props.TransposeRed
import Verif.Model.GpuChoice
import Verif.Props.GpuChoice
import Verif.Proofs.JvpBatch
import Verif.Props.JvpBatch
import Verif.Model.Launch
import Verif.Spec.Launch
import Verif.Proofs.Launch
import Verif.Props.Launch
import Verif.Model.GpuFiles
import Verif.Spec.GpuFiles
import Verif.Proofs.GpuFiles
import Verif.Props.GpuFiles
import Verif.Model.LazyDot
import Verif.Spec.LazyDot
import Verif.Proofs.LazyDot
import Verif.Props.LazyDot
import Verif.Proofs.BackwardLseBatch
import Verif.Props.BackwardLseBatch
import Verif.Proofs.JvpLseBatch
import Verif.Props.JvpLseBatch
import Verif.Spec.Vmap
import Verif.Proofs.Vmap
import Verif.Props.Vmap
import Verif.Model.PyFormula
import Verif.Spec.PyFormula
import Verif.Proofs.PyFormula
import Verif.Props.PyFormula
import Verif.Model.Pcg
import Verif.Proofs.Pcg
import Verif.Props.Pcg
import Verif.Props.Accept
import Verif.Props.MethodsAccept
import Verif.Props.Reject
import Verif.Props.PcgGauss
import Verif.Props.LinOp
import Verif.Props.RedAccept
import Verif.Proofs.VmapRed
import Verif.Props.VmapRed
import Verif.Props.LinOpBatch
import Verif.Props.LinOpSizes
import Verif.Props.BuildFolder
import Verif.Props.MethodsTotal
import Verif.Props.MethodsTotalBatch
import Verif.Props.MethodsTotalRanges
