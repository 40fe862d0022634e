import Verif.Struct
import Verif.StateListLemmas
import Verif.Spec
import Verif.Lemmas
import Verif.DependLemmas
import Verif.Props.States
import Verif.Props.Setters
import Verif.Props.Slices
import Verif.Props.Renaming
import Verif.Props.Blocks
import Verif.Props.Lengths
import Verif.Props.ZCurve
import Verif.Props.Bounds
import Verif.Props.Alias
import Verif.Props.Layout
import Verif.Grow
import Verif.Props.Traversal
import Verif.Props.Orders
import Verif.Props.Union
import Verif.Props.Proto
import Verif.Props.IndexSpace
import Verif.Props.SymmetricSpan
import Verif.Props.Range
import Verif.Props.Reduce
import Verif.Props.Memory
import Verif.Props.Serialize
import Verif.Props.Sections
import Verif.Props.Mangle
import Verif.Props.Striped
import Verif.Props.Along
import Verif.Props.Machine
import Verif.Props.OffsetAlong
import Verif.Contiguous
import Verif.ContigSpec
import Verif.ContigLemmas
import Verif.ContigChain
import Verif.Props.Contiguous
import Verif.LowerBound
import Verif.LowerLemmas
import Verif.LowerMain
import Verif.LowerGoes
import Verif.LowerLowest
import Verif.Props.LowerBound
import Verif.Planner
import Verif.PlannerSpec
import Verif.PlannerLemmas
import Verif.PlannerMain
import Verif.Props.Planner
import Verif.PlannerIter
import Verif.PlannerIterSpec
import Verif.PlannerIterLemmas
import Verif.Props.PlannerIter
import Verif.Cuda
import Verif.CudaSpec
import Verif.CudaLemmas
import Verif.Props.Cuda
import Verif.StepShare
import Verif.RangeSections
import Verif.Props.RangeMore
import Verif.Contain
import Verif.ContainLemmas
import Verif.Props.Contain
import Verif.ScalarType
import Verif.ScalarLemmas
import Verif.Props.ScalarType
import Verif.RoomSpec
import Verif.RoomLen
import Verif.RoomView
import Verif.RoomMain
import Verif.RoomEasy
import Verif.Props.Room
import Verif.SubStruct
import Verif.SubSpec
import Verif.SubLemmas
import Verif.SubDisjoint
import Verif.Props.SubStruct
import Verif.StaticLen
import Verif.StaticLenMain
import Verif.Props.StaticLen
import Verif.Like
import Verif.LikeLemmas
import Verif.Props.Like
import Verif.Bags
import Verif.BagsSpec
import Verif.BagsLemmas
import Verif.Props.Bags
import Verif.MangleStruct
import Verif.MangleStructSpec
import Verif.MangleStructLemmas
import Verif.Props.MangleStruct
import Verif.ZMain
import Verif.ZMachine
import Verif.ZProto
import Verif.Props.ZMachine
import Verif.StaticVal
import Verif.Props.StaticVal
import Verif.StateShortcuts
import Verif.Props.StateShortcuts
import Verif.DimSeq
import Verif.Props.DimSeq
import Verif.SigSpec
import Verif.Props.Signatures
import Verif.Props.LowerAvail
import Verif.Props.Matrix
import Verif.Names
import Verif.NamesLemmas
import Verif.Props.Names
import Verif.Program
import Verif.ProgramSpec
import Verif.ProgramLemmas
import Verif.Props.Program
import Verif.Props.ForEach
import Verif.Parallel
import Verif.ReduceBags
import Verif.CudaBags
import Verif.ParallelSpec
import Verif.ParallelLemmas
import Verif.Props.Parallel
import Verif.Props.ReduceBags
import Verif.Props.CudaBags
import Verif.Props.CudaStepBags
import Verif.Props.Sums
import Verif.Props.RenameBags
import Verif.Props.Windows
import Verif.Props.SeparateLengths
import Verif.BlockSum
import Verif.Props.BlockSum
import Verif.Props.MergedLayouts
import Verif.Props.Rounds
import Verif.Props.LoopOrders
import Verif.Props.TiledLoops
import Verif.Props.TiledProduct
