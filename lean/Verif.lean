import Verif.Basic
import Verif.Model.ActThreads
import Verif.Model.Aggregate
import Verif.Model.Analysis
import Verif.Model.Builder
import Verif.Model.ByIndex
import Verif.Model.CaughtIteration
import Verif.Model.Collapse
import Verif.Model.ConcProfiler
import Verif.Model.Concurrent
import Verif.Model.Counters
import Verif.Model.Create
import Verif.Model.Crox
import Verif.Model.Decoder
import Verif.Model.Diff
import Verif.Model.EventId
import Verif.Model.FileEffects
import Verif.Model.FileHeader
import Verif.Model.Json
import Verif.Model.JsonOut
import Verif.Model.Mmedit
import Verif.Model.Mmview
import Verif.Model.Path
import Verif.Model.Printing
import Verif.Model.Profiler
import Verif.Model.RawEvent
import Verif.Model.ReadBack
import Verif.Model.Reentrant
import Verif.Model.SelfTest
import Verif.Model.SeqLock
import Verif.Model.Serialization
import Verif.Model.StringTable
import Verif.Model.Summarize
import Verif.Model.Tools
import Verif.Model.Utf8
import Verif.Proofs.ActThreads
import Verif.Proofs.Aggregate
import Verif.Proofs.AggregateOrder
import Verif.Proofs.AggregatePanics
import Verif.Proofs.AggregateReport
import Verif.Proofs.Analysis
import Verif.Proofs.AnalysisMore
import Verif.Proofs.AnyCollapse
import Verif.Proofs.AnyStream
import Verif.Proofs.Builder
import Verif.Proofs.Collapse
import Verif.Proofs.CollapseLight
import Verif.Proofs.ConcDenotes
import Verif.Proofs.ConcFaults
import Verif.Proofs.ConcFaultsInv
import Verif.Proofs.ConcKilled
import Verif.Proofs.ConcProfiler
import Verif.Proofs.ConcProgress
import Verif.Proofs.ConcScoped
import Verif.Proofs.Concurrent
import Verif.Proofs.Container
import Verif.Proofs.ContainerMore
import Verif.Proofs.Crash
import Verif.Proofs.Create
import Verif.Proofs.Crox
import Verif.Proofs.Decimal
import Verif.Proofs.Decoder
import Verif.Proofs.Diff
import Verif.Proofs.DiffJson
import Verif.Proofs.EndToEnd
import Verif.Proofs.EventId
import Verif.Proofs.Extrema
import Verif.Proofs.Interleave
import Verif.Proofs.InterleaveCollapse
import Verif.Proofs.Json
import Verif.Proofs.JsonFiles
import Verif.Proofs.JsonFits
import Verif.Proofs.JsonOut
import Verif.Proofs.JsonText
import Verif.Proofs.Killed
import Verif.Proofs.Linearize
import Verif.Proofs.Mmedit
import Verif.Proofs.Nesting
import Verif.Proofs.Panics
import Verif.Proofs.Path
import Verif.Proofs.Printing
import Verif.Proofs.ProfPanics
import Verif.Proofs.Profiler
import Verif.Proofs.ProfilerPages
import Verif.Proofs.RawEvent
import Verif.Proofs.Reentrant
import Verif.Proofs.ReentrantThreads
import Verif.Proofs.Rerun
import Verif.Proofs.SamplePoints
import Verif.Proofs.SelfTest
import Verif.Proofs.Space
import Verif.Proofs.Split
import Verif.Proofs.StringFast
import Verif.Proofs.StringReader
import Verif.Proofs.StringSession
import Verif.Proofs.StringTable
import Verif.Proofs.Texts
import Verif.Proofs.TextsDiff
import Verif.Proofs.TextsJson
import Verif.Proofs.TextsTools
import Verif.Proofs.Utf8
import Verif.Proofs.Utf8Texts
import Verif.Props.ActThreads
import Verif.Props.Aggregate
import Verif.Props.AggregateAny
import Verif.Props.Analysis
import Verif.Props.AnyCollapse
import Verif.Props.AnyStream
import Verif.Props.Builder
import Verif.Props.ByIndex
import Verif.Props.CaughtIteration
import Verif.Props.Collapse
import Verif.Props.ConcFaults
import Verif.Props.ConcKilled
import Verif.Props.ConcProfiler
import Verif.Props.Concurrent
import Verif.Props.Container
import Verif.Props.Counters
import Verif.Props.CountersMade
import Verif.Props.Crash
import Verif.Props.Create
import Verif.Props.Crox
import Verif.Props.CroxOrder
import Verif.Props.Custom
import Verif.Props.CustomProfile
import Verif.Props.Damaged
import Verif.Props.Decoder
import Verif.Props.Diff
import Verif.Props.DiffJson
import Verif.Props.EndToEnd
import Verif.Props.EventId
import Verif.Props.EventIdReports
import Verif.Props.FileEffects
import Verif.Props.Guards
import Verif.Props.Header
import Verif.Props.InterleaveCollapse
import Verif.Props.Iteration
import Verif.Props.JsonFiles
import Verif.Props.Killed
import Verif.Props.Mmedit
import Verif.Props.Mmview
import Verif.Props.Panics
import Verif.Props.PanicsThreads
import Verif.Props.Path
import Verif.Props.Printing
import Verif.Props.ProfPanics
import Verif.Props.ProfilerPages
import Verif.Props.RawEvent
import Verif.Props.ReadBack
import Verif.Props.Reentrant
import Verif.Props.ReentrantThreads
import Verif.Props.Refused
import Verif.Props.Rerun
import Verif.Props.SelfTest
import Verif.Props.SeqLock
import Verif.Props.SharedTags
import Verif.Props.Space
import Verif.Props.StringTable
import Verif.Props.Summarize
import Verif.Props.Texts
import Verif.Props.TextsDiff
import Verif.Props.ThreadsPages
import Verif.Props.ToolOrder
import Verif.Spec.ActThreads
import Verif.Spec.Aggregate
import Verif.Spec.Analysis
import Verif.Spec.AnyCollapse
import Verif.Spec.AnyStream
import Verif.Spec.Builder
import Verif.Spec.CaughtIteration
import Verif.Spec.Collapse
import Verif.Spec.ConcCrash
import Verif.Spec.ConcFaults
import Verif.Spec.ConcProfiler
import Verif.Spec.Concurrent
import Verif.Spec.Container
import Verif.Spec.Counters
import Verif.Spec.Crash
import Verif.Spec.Crox
import Verif.Spec.CroxOrder
import Verif.Spec.Damaged
import Verif.Spec.Diff
import Verif.Spec.DiffJson
import Verif.Spec.EndToEnd
import Verif.Spec.EventId
import Verif.Spec.Guards
import Verif.Spec.Iter
import Verif.Spec.JsonFiles
import Verif.Spec.JsonText
import Verif.Spec.Mmview
import Verif.Spec.Panics
import Verif.Spec.Path
import Verif.Spec.Printing
import Verif.Spec.ProfPanics
import Verif.Spec.Profiler
import Verif.Spec.Reentrant
import Verif.Spec.Refused
import Verif.Spec.Rerun
import Verif.Spec.Space
import Verif.Spec.StringTable
import Verif.Spec.Text
