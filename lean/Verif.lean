import Verif.Spec.Index
import Verif.Spec.Elem
import Verif.Spec.Slice
import Verif.Spec.Frame
import Verif.Model.Base
import Verif.Model.Match
import Verif.Model.Iter
import Verif.Model.Ply
import Verif.Model.Len
import Verif.Model.From
import Verif.Model.Frame
import Verif.Model.ViewOps
import Verif.Model.Explode
import Verif.Lemmas.Iter
import Verif.Lemmas.Match
import Verif.Lemmas.Search
import Verif.Lemmas.At
import Verif.Lemmas.Odometer
import Verif.Lemmas.Ply
import Verif.Lemmas.Shape
import Verif.Lemmas.Frame
import Verif.Props.Traversal
import Verif.Props.Expr
import Verif.Props.Slice
import Verif.Props.Frame
import Verif.Props.ViewOps
import Verif.Props.Transpose
import Verif.Props.Reshape
import Verif.Props.Explode
import Verif.Model.Static
import Verif.Props.Static
import Verif.Props.StaticExact
import Verif.Model.Reduce
import Verif.Props.Reduce
import Verif.Model.Opt
import Verif.Props.Opt
import Verif.Model.Mp
import Verif.Model.Wedge
import Verif.Props.Binom
import Verif.Props.Mp
import Verif.Props.Combs
import Verif.Props.Wedge
import Verif.Props.Hodge
import Verif.Model.Assign
import Verif.Model.Matrix
import Verif.Spec.Memory
import Verif.Props.Nested
import Verif.Props.Assign
import Verif.Props.AssignLast
import Verif.Props.Matrix
import Verif.Model.Array
import Verif.Spec.Container
import Verif.Props.Array
import Verif.Model.Fill
import Verif.Spec.Fill
import Verif.Props.Fill
import Verif.Model.Test
import Verif.Spec.Test
import Verif.Props.Test
import Verif.Model.Format
import Verif.Spec.Format
import Verif.Props.Format
import Verif.Model.Dual
import Verif.Spec.Dual
import Verif.Props.Dual
import Verif.Props.Stl
import Verif.Props.Crash
import Verif.Model.Tls
import Verif.Props.Tls
import Verif.Model.Thread
import Verif.Spec.Thread
import Verif.Props.Thread
import Verif.Model.Machine
import Verif.Props.Machine
import Verif.Model.Pointer
import Verif.Props.Pointer
import Verif.Model.FromAny
import Verif.Props.FromAny
import Verif.Model.Tindex
import Verif.Props.Tindex
import Verif.Model.Float
import Verif.Props.Float
import Verif.Model.Chain
import Verif.Props.Chain
import Verif.Props.Nest
import Verif.Model.Program
import Verif.Spec.Value
import Verif.Props.Value
import Verif.Model.Access
import Verif.Props.Access
import Verif.Model.OptSmall
import Verif.Props.OptSmall
import Verif.Model.ViewProgram
import Verif.Spec.Views
import Verif.Props.Views
import Verif.Props.ViewProgram
import Verif.Props.Grid
import Verif.Props.OptExpr
import Verif.Model.LenTree
import Verif.Props.LenTree
import Verif.Props.ReshapeExact
import Verif.Props.Interrupt
import Verif.Props.FormatFail
import Verif.Model.Shared
import Verif.Spec.Shared
import Verif.Props.Shared
import Verif.Model.Caught
import Verif.Props.Caught
import Verif.Props.ExplodeExact
import Verif.Model.Complex
import Verif.Props.Complex
import Verif.Model.Cat
import Verif.Props.Cat
import Verif.Model.Bench
import Verif.Props.Bench
import Verif.Props.PointerExact
import Verif.Model.Foreign
import Verif.Props.Foreign
import Verif.Model.Dispatch
import Verif.Props.Dispatch
import Verif.Model.Delay
import Verif.Spec.Delay
import Verif.Props.Delay
import Verif.Model.SeqType
import Verif.Props.SeqType
import Verif.Spec.At
import Verif.Props.At
import Verif.Model.AgreeOp
import Verif.Props.AgreeOp
import Verif.Model.AtArray
import Verif.Props.AtArray
import Verif.Model.DualIO
import Verif.Props.DualIO
import Verif.Model.CaughtViews
import Verif.Props.CaughtViews
import Verif.Model.FullProgram
import Verif.Spec.Full
import Verif.Props.FullExp
import Verif.Props.FullProgram
import Verif.Model.CaughtFull
import Verif.Props.CaughtFull
import Verif.Model.HodgeMem
import Verif.Props.HodgeMem
import Verif.Conform.Base
import Verif.Conform.From
import Verif.Conform.Views
import Verif.Conform.Exprs
import Verif.Conform.Text
import Verif.Conform.Algebra
import Verif.Conform.Checks
import Verif.Model.MpList
import Verif.Props.MpList
import Verif.Conform.Lists
import Verif.Conform.Arrays
import Verif.Conform.Mixed
import Verif.Model.Manual
import Verif.Props.Manual
import Verif.Model.NoCheck
import Verif.Lemmas.NoCheck
import Verif.Props.NoCheck
import Verif.Model.Bindings
import Verif.Props.Bindings
import Verif.Spec.Safe
import Verif.Props.Safe
import Verif.Spec.Inside
import Verif.Props.SafeViews
import Verif.Model.NestedIO
import Verif.Props.NestedIO
import Verif.Model.MachineView
import Verif.Spec.MachineView
import Verif.Props.MachineView
import Verif.Model.MachinePly
import Verif.Props.MachinePly
import Verif.Model.Const
import Verif.Props.Const
import Verif.Model.MachineProgram
import Verif.Props.MachineProgram
import Verif.Model.Amid
import Verif.Spec.Amid
import Verif.Props.Amid
import Verif.Props.AmidSteps
import Verif.Props.AmidArrays
import Verif.Props.AmidPrograms
import Verif.Props.AmidThreads
import Verif.Spec.Race
import Verif.Props.AmidRaces
import Verif.Model.ShapeArg
import Verif.Props.ShapeArg
import Verif.Model.ViewDims
import Verif.Props.ViewDims
import Verif.Model.Gemm
import Verif.Props.Gemm
import Verif.Props.GemmLoops
import Verif.Props.GemmDot
import Verif.Model.StencilRun
import Verif.Props.WindowSum
import Verif.Props.StencilRun
import Verif.Model.Cghs
import Verif.Props.Conjugate
import Verif.Props.Cghs
import Verif.Props.Laplace
import Verif.Props.Krylov
import Verif.Model.AxisSum
import Verif.Props.AxisSum
import Verif.Props.AxisProduct
import Verif.Model.Select
import Verif.Props.Select
import Verif.Props.SelectWays
import Verif.Model.Maxwell
import Verif.Props.Roll
import Verif.Props.Maxwell
import Verif.Props.Field
import Verif.Model.Newton
import Verif.Props.Newton
import Verif.Model.AtView
import Verif.Props.AtView
import Verif.Model.Pack
import Verif.Props.Pack
import Verif.Props.Histories
import Verif.Model.Laplace3
import Verif.Props.Laplace3
import Verif.Props.Laplace3Cube
import Verif.Props.Laplace3Set
import Verif.Model.Dot
import Verif.Props.Dot
import Verif.Props.DotAt
import Verif.Model.Count
import Verif.Props.Count
import Verif.Model.Indirect
import Verif.Props.Indirect
import Verif.Model.Deriv
import Verif.Props.Deriv
import Verif.Model.Where
import Verif.Props.Where
import Verif.Model.ByCells
import Verif.Props.ByCells
import Verif.Model.CellSum
import Verif.Props.CellSum
import Verif.Props.Subscripts
import Verif.Model.ArraySum
import Verif.Props.ArraySum
import Verif.Model.NestedPut
import Verif.Props.NestedPut
import Verif.Props.Positions
import Verif.Model.Members
import Verif.Props.Members
import Verif.Props.Overlap
import Verif.Props.Moved
import Verif.Props.Alike
