import Verif.Model.Basic
import Verif.Model.F64
import Verif.Model.BitSet
import Verif.Model.Hash
import Verif.Model.Sizing
import Verif.Model.Io
import Verif.Model.Flags
import Verif.Model.V1
import Verif.Model.V2
import Verif.Model.Bloom
import Verif.Model.Utils
import Verif.Model.Cli
import Verif.Model.Python
import Verif.Spec
import Verif.Lemmas.BitList
import Verif.Lemmas.BitSet
import Verif.Lemmas.Probe
import Verif.Lemmas.V2
import Verif.Lemmas.V1
import Verif.Lemmas.Bytes
import Verif.Lemmas.Xorshift
import Verif.Lemmas.Float
import Verif.Props.BitSet
import Verif.Props.Hash
import Verif.Lemmas.Sizing
import Verif.Lemmas.Io
import Verif.Lemmas.Ser
import Verif.Lemmas.Reload
import Verif.Lemmas.Fpp
import Verif.History
import Verif.Lemmas.V2Ops
import Verif.Lemmas.V1Ops
import Verif.Lemmas.Partial
import Verif.Lemmas.Failing
import Verif.Samples
import Verif.Lemmas.Serial
import Verif.Props.Serial
import Verif.Lemmas.Libm
import Verif.Lemmas.Sizes
import Verif.Lemmas.Origin
import Verif.Props.Constructor
import Verif.Lemmas.Members
import Verif.Props.Membership
import Verif.Lemmas.Counting
import Verif.Props.Counting
import Verif.Lemmas.Merge
import Verif.Props.Merge
import Verif.Lemmas.Misc
import Verif.Props.Misc
import Verif.CliSpec
import Verif.BenchSpec
import Verif.Lemmas.Utf8
import Verif.Lemmas.Cli
import Verif.Lemmas.CliInsert
import Verif.Props.Cli
import Verif.Lemmas.CliCommands
import Verif.Props.CliCommands
import Verif.Lemmas.CliOrder
import Verif.Props.CliOrder
import Verif.Props.EntryPoints
import Verif.Props.FalsePos
import Verif.Props.Floor
import Verif.Lemmas.FalsePos
import Verif.Lemmas.FalsePosSample
import Verif.Props.Python
import Verif.Lemmas.Compat
import Verif.Props.Compat
import Verif.Model.Bench
import Verif.Lemmas.Bench
import Verif.Props.Bench
import Verif.SpecReal
import Verif.Lemmas.Accuracy
import Verif.Lemmas.AccuracySizes
import Verif.Props.Accuracy
import Verif.Assumptions
import Verif.Lemmas.Pow2
import Verif.Props.Pow2
import Verif.Model.Main
import Verif.SessionSpec
import Verif.Lemmas.Sessions
import Verif.Props.Sessions
import Verif.PySpec
import Verif.Lemmas.PyPrograms
import Verif.Props.PyPrograms
import Verif.Conformance
import Verif.Abstract
import Verif.Refine
import Verif.Lemmas.Refine
import Verif.Props.Refine
import Verif.LoadSpec
import Verif.LoadView
import Verif.Lemmas.Load
import Verif.Props.Load
import Verif.Lemmas.Peek
import Verif.Props.Peek
import Verif.AbstractBloom
import Verif.RefineBloom
import Verif.Lemmas.RefineBloom
import Verif.Props.RefineBloom
import Verif.Lemmas.Spread
import Verif.Lemmas.Average
import Verif.Props.Spread
import Verif.Props.AverageFill
import Verif.Props.Reading
import Verif.WriteSpec
import Verif.Lemmas.Write
import Verif.AbstractCli
import Verif.Lemmas.AbstractCli
import Verif.Props.AbstractCli
import Verif.Lemmas.CacheHashes
import Verif.Lemmas.CacheHashesV2
import Verif.Props.CacheAccuracy
import Verif.Model.Stdout
import Verif.StdoutSpec
import Verif.Lemmas.Stdout
import Verif.Props.Stdout
import Verif.Lemmas.BenchText
import Verif.Props.BenchText
import Verif.AbstractMain
import Verif.Lemmas.AbstractMain
import Verif.Props.AbstractMain
import Verif.Model.Args
import Verif.SpecArgs
import Verif.Lemmas.Args
import Verif.Lemmas.ArgsHelp
import Verif.Props.Args
import Verif.JobsSpec
import Verif.Lemmas.Jobs
import Verif.Props.Jobs
import Verif.Model.FileOps
import Verif.OverlapSpec
import Verif.Lemmas.FileBits
import Verif.Lemmas.Overlap
import Verif.Props.Overlap
import Verif.InteropSpec
import Verif.Lemmas.Interop
import Verif.Props.Interop
import Verif.PartialSpec
import Verif.Lemmas.PartialUse
import Verif.Props.PartialUse
import Verif.Model.Statrs
import Verif.Lemmas.Statrs
import Verif.Lemmas.Measure
import Verif.Props.Measure
import Verif.Model.Decimal
import Verif.SpecDecimal
import Verif.Lemmas.Decimal
import Verif.Lemmas.DecimalText
import Verif.Props.Decimal
import Verif.Model.PyCalls
import Verif.AbstractPy
import Verif.Lemmas.PyCalls
import Verif.Lemmas.PyCallEffects
import Verif.Lemmas.F64Bits
import Verif.Props.PyCalls
import Verif.Lemmas.DecimalSci
import Verif.Lemmas.F64Ties
import Verif.Props.DecimalRead
import Verif.Lemmas.Loads
import Verif.Props.Loads
import Verif.Model.PyKeywords
import Verif.AbstractKeywords
import Verif.Lemmas.PyKeywords
import Verif.Props.PyKeywords
import Verif.Props.Exact
import Verif.Lemmas.Distinct
import Verif.Props.Distinct
import Verif.Model.Messages
import Verif.Lemmas.Messages
import Verif.Props.Messages
import Verif.Lemmas.DcsoKeys
import Verif.Props.DcsoKeys
import Verif.Lemmas.EstimatedP
import Verif.Props.EstimatedP
import Verif.Props.Memory
import Verif.Props.Readers
import Verif.Props.ReadCount
import Verif.Props.NoBits
import Verif.Lemmas.LoadMemory
import Verif.Props.LoadMemory
import Verif.Lemmas.Creation
import Verif.Props.Creation
import Verif.Lemmas.Room
import Verif.Props.Room
import Verif.Props.Capacity
import Verif.Props.Pipe
import Verif.Lemmas.MoreRoom
import Verif.Props.Dataset
import Verif.Props.RoomLeft
import Verif.PyUseSpec
import Verif.Lemmas.PyUse
import Verif.Props.PyRoom
import Verif.Props.PyTool
import Verif.Lemmas.Readme
import Verif.Props.Readme
import Verif.Props.AccuracyV1
import Verif.FillSpec
import Verif.Lemmas.Fill
import Verif.Props.Fill
import Verif.ShardSpec
import Verif.Lemmas.Shard
import Verif.Props.Shard
import Verif.BuildSpec
import Verif.Lemmas.Build
import Verif.Props.Build
import Verif.AppendSpec
import Verif.Lemmas.Append
import Verif.Props.Append
import Verif.GrowSpec
import Verif.Lemmas.Grow
import Verif.Props.Grow
import Verif.OnFileSpec
import Verif.Lemmas.OnFile
import Verif.Props.OnFile
import Verif.Lemmas.Bitwise
import Verif.Props.Bitwise
import Verif.Model.Compare
import Verif.CompareSpec
import Verif.Lemmas.Compare
import Verif.Props.Compare
import Verif.LevelsSpec
import Verif.Lemmas.Levels
import Verif.Props.Levels
import Verif.Audit
