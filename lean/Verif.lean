import Verif.Proofs.Sort
import Verif.Model.NDArray
import Verif.Model.Materialize
import Verif.Proofs.Topo
import Verif.Proofs.FuseInv
import Verif.Proofs.KernelR
import Verif.Proofs.KernelCpu
import Verif.Proofs.KernelGpu
import Verif.Proofs.Stores
import Verif.Proofs.Layout
import Verif.Proofs.Tolist
import Verif.Proofs.Nested
import Verif.Proofs.Shift
import Verif.Proofs.Backend
import Verif.Proofs.MatLemmas
import Verif.Proofs.Materialize
import Verif.Model.History
import Verif.Spec.History
import Verif.Spec.Gradient
import Verif.Proofs.Refs
import Verif.Proofs.ApiS
import Verif.Proofs.Vjp5
import Verif.Proofs.Dfs
import Verif.Proofs.Backward
import Verif.Proofs.History
import Verif.Props.Basics
import Verif.Spec.Observe
import Verif.Spec.Slice
import Verif.Proofs.Observe
import Verif.Proofs.Demo
import Verif.Proofs.Slice
import Verif.Props.Construct
import Verif.Props.Layout
import Verif.Props.Transpose
import Verif.Props.Indexing
import Verif.Props.Reshape
import Verif.Props.Broadcast
import Verif.Spec.Reference
import Verif.Props.Compute
import Verif.Props.EndToEnd
import Verif.Spec.Fusion
import Verif.Spec.Launch
import Verif.Proofs.Fusion
import Verif.Proofs.Launch
import Verif.Proofs.Linear
import Verif.Props.Compile
import Verif.Spec.Reorder
import Verif.Proofs.Reorder
import Verif.Proofs.DemoDev
import Verif.Props.Kernels
import Verif.Props.Schedule
import Verif.Props.Session
import Verif.Props.Gradient
import Verif.Spec.Adjoint
import Verif.Spec.Derivative
import Verif.Proofs.Adjoint
import Verif.Proofs.Derivative
import Verif.Props.Adjoint
import Verif.Props.Derivative
import Verif.Spec.Cache
import Verif.Proofs.Cache
import Verif.Proofs.CacheLog
import Verif.Props.Cache
import Verif.Spec.Scope
import Verif.Proofs.Scope
import Verif.Proofs.Names
import Verif.Props.Scope
import Verif.Proofs.Strict
import Verif.Props.Agree
import Verif.Spec.DType
import Verif.Props.DType
import Verif.Props.ScalarReshape
import Verif.Model.Text
import Verif.Spec.Syntax
import Verif.Proofs.TextTree
import Verif.Proofs.Lex
import Verif.Proofs.ParseExpr
import Verif.Proofs.ParseStmt
import Verif.Proofs.ParsePy
import Verif.Proofs.ParseProg
import Verif.Proofs.GenFits
import Verif.Props.Text
import Verif.Spec.Semantics
import Verif.Spec.Numbers
import Verif.Proofs.SemExpr
import Verif.Proofs.SemStmt
import Verif.Proofs.SemGen
import Verif.Spec.Small
import Verif.Proofs.Lits
import Verif.Proofs.Bounded
import Verif.Proofs.SemRun
import Verif.Proofs.Numbers
import Verif.Props.Semantics
import Verif.Props.Overflow
import Verif.Spec.Related
import Verif.Proofs.Related
import Verif.Proofs.RelatedB
import Verif.Proofs.RelatedW
import Verif.Proofs.RelatedC
import Verif.Props.Backends
import Verif.Model.Crash
import Verif.Spec.Crash
import Verif.Proofs.Crash
import Verif.Props.Crash
import Verif.Spec.Switch
import Verif.Proofs.Switch
import Verif.Props.Switch
import Verif.Spec.Custom
import Verif.Proofs.Custom
import Verif.Props.Custom
import Verif.Proofs.CustomGpu
import Verif.Props.CustomGpu
import Verif.Spec.Strided
import Verif.Proofs.Strided
import Verif.Props.Strided
import Verif.Model.Collect
import Verif.Spec.Collect
import Verif.Proofs.Collect
import Verif.Proofs.CollectSim
import Verif.Proofs.DemoG
import Verif.Props.Collect
import Verif.Spec.Grid
import Verif.Props.Grid
import Verif.Props.OneKernel
import Verif.Props.KeySize
import Verif.Props.Stopped
import Verif.Model.KeyText
import Verif.Model.Str
import Verif.Spec.KeyText
import Verif.Proofs.KeyText
import Verif.Props.KeyText
import Verif.Spec.Tensor
import Verif.Spec.Backend
import Verif.Spec.Nesting
import Verif.Spec.KeySize
import Verif.Spec.Device
import Verif.Spec.Index
import Verif.Spec.Vjp
import Verif.Spec.Nested
import Verif.Spec.Reach
import Verif.Spec.OneKernel
import Verif.Spec.Denote
import Verif.Spec.WellFormed
import Verif.Model.Backward
import Verif.Model.Names
import Verif.Model.Kernel
import Verif.Model.Ops
import Verif.Model.Algo
import Verif.Model.Sched
import Verif.Model.Util
import Verif.Model.Parallel
import Verif.Proofs.Vjp3
import Verif.Proofs.Stopped
import Verif.Proofs.Fuse
import Verif.Proofs.Str
import Verif.Proofs.Convert
import Verif.Proofs.Vjp2
import Verif.Proofs.Account
import Verif.Proofs.Nesting
import Verif.Proofs.Vjp4
import Verif.Proofs.KeySize
import Verif.Proofs.Device
import Verif.Proofs.Index
import Verif.Proofs.ExprSem
import Verif.Proofs.Vjp
import Verif.Proofs.KernelSem
import Verif.Proofs.Grid
import Verif.Proofs.MustKernel
import Verif.Proofs.IdxMaps
import Verif.Proofs.KernelLoops
import Verif.Proofs.ReduceIdx
import Verif.Proofs.Graph
import Verif.Proofs.MkExpr2
import Verif.Proofs.Api
import Verif.Proofs.OneKernel
import Verif.Proofs.KernelD
import Verif.Proofs.Congr
import Verif.Proofs.MkExpr
import Verif.Props.Str
import Verif.Props.Nesting
import Verif.Model.Limit
import Verif.Spec.Limit
import Verif.Proofs.Limit
import Verif.Props.Limit
import Verif.Model.Source
import Verif.Spec.Source
import Verif.Proofs.SourceFrame
import Verif.Proofs.SourceElem
import Verif.Proofs.SourceRun
import Verif.Proofs.Source
import Verif.Props.Source
import Verif.Model.Stale
import Verif.Model.Refused
import Verif.Model.Debug
import Verif.Spec.Stale
import Verif.Spec.Refused
import Verif.Spec.Debug
import Verif.Proofs.Stale
import Verif.Proofs.Refused
import Verif.Proofs.Debug
import Verif.Props.Stale
import Verif.Props.Refused
import Verif.Props.Debug
import Verif.Tests.Runner
import Verif.Tests.Repo
import Verif.Model.Address
import Verif.Spec.Address
import Verif.Proofs.Address
import Verif.Props.Address
import Verif.Spec.CrashGpu
import Verif.Proofs.CrashTrace
import Verif.Proofs.CrashGpu
import Verif.Props.CrashGpu
import Verif.Model.Ctypes
import Verif.Spec.Ctypes
import Verif.Proofs.LayoutOnly
import Verif.Proofs.Ctypes
import Verif.Proofs.CtypesRun
import Verif.Proofs.CtypesStep
import Verif.Props.Ctypes
import Verif.Spec.Amid
import Verif.Proofs.Embed
import Verif.Proofs.EmbedB
import Verif.Proofs.EmbedC
import Verif.Proofs.EmbedD
import Verif.Proofs.EmbedE
import Verif.Proofs.EmbedF
import Verif.Props.Amid
import Verif.Model.Writer
import Verif.Model.Unfinished
import Verif.Spec.Unfinished
import Verif.Proofs.Writer
import Verif.Proofs.WriterB
import Verif.Proofs.WriterC
import Verif.Proofs.Unfinished
import Verif.Proofs.UnfinishedB
import Verif.Proofs.UnfinishedC
import Verif.Props.Unfinished
import Verif.Model.Threads
import Verif.Spec.Threads
import Verif.Proofs.Threads
import Verif.Proofs.ThreadsB
import Verif.Proofs.ThreadsC
import Verif.Props.Threads
import Verif.Props.Ceil
import Verif.Spec.CrashCollect
import Verif.Proofs.CrashCollect
import Verif.Proofs.CrashTraceB
import Verif.Proofs.CrashCollectB
import Verif.Props.CrashCollect
