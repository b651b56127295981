import Verif.Props.Variant
import Verif.Props.Blackboard
import Verif.Props.Tree
import Verif.Props.Runtime
import Verif.Props.Validator
import Verif.Props.Loop
import Verif.Props.Attr
import Verif.Props.SnapBuilder
import Verif.Props.Compressed
import Verif.Props.CaliText
import Verif.Props.CaliFile
import Verif.Props.CaliGlobals
import Verif.Props.Aggregation
import Verif.Props.QueryAgg
import Verif.Props.Select
import Verif.Props.RegionFilter
import Verif.Props.Pool
import Verif.Props.Splay
import Verif.Props.PropStr
import Verif.Props.StringDB
import Verif.Props.Globals
import Verif.Props.Channel
import Verif.Props.ConcTree
import Verif.Props.Cache
import Verif.Props.Siglock
import Verif.Props.Init
import Verif.Props.Split
import Verif.Props.Mpi
import Verif.Props.Profile
import Verif.Props.Timer
import Verif.Props.Config
import Verif.Props.Trace
import Verif.Props.Json
import Verif.Props.Preproc
import Verif.Props.CalQL
import Verif.Props.TreeFmt
import Verif.Props.TableFmt
import Verif.Props.ConfSpecs
import Verif.Props.ConfString
import Verif.Props.ConfOpts
import Verif.Props.ConfMeta
import Verif.Props.JsonSplit
import Verif.Props.Expand
import Verif.Props.FormatStr
import Verif.Props.OutStream
import Verif.Props.Kernels
import Verif.Props.AnnotObj
import Verif.Props.AnnotRef
import Verif.Props.CapiSnapshot
import Verif.Props.AggThreads
import Verif.Props.RegionProfile
import Verif.Props.Pipeline
import Verif.Props.Messages
import Verif.Props.MpiFilter
import Verif.Props.Io
import Verif.Props.EndToEnd
import Verif.Props.Cli
import Verif.Props.CliQuery
import Verif.Props.AllocStats
import Verif.Props.RegionMonitor
import Verif.Props.Adiak
import Verif.Props.EndToEndThreads
import Verif.Props.Plan
import Verif.Props.Controller
import Verif.Props.PrintedTree
import Verif.Props.Services
import Verif.Props.BuiltinSpecs
import Verif.Props.Timeseries
import Verif.Props.Presets
import Verif.Props.SignalAlloc
import Verif.Props.CaliMetadata
import Verif.Props.Symbols
import Verif.Props.CaliDamage
import Verif.Props.Binding
import Verif.Props.CaliMerge
import Verif.Props.PyReader
import Verif.Props.CCalls
import Verif.Props.TraceEvent
import Verif.Props.Collective
import Verif.Props.Ompt
import Verif.Props.ChannelCalls
import Verif.Props.JsonConv
import Verif.Props.Papi
import Verif.Props.LoopReport
import Verif.Props.Sampler
import Verif.Props.Callpath
import Verif.Props.ThreadMonitor
import Verif.Props.Memstat
import Verif.Props.Stat
import Verif.Props.ChannelMgr
import Verif.Props.Kokkos
import Verif.Props.Variorum
import Verif.Props.Annotate
import Verif.Props.Pcp
import Verif.Props.Nvtx
import Verif.Props.RecTable
import Verif.Props.Topdown
import Verif.Props.Pthread
