import Verif.Model.Base
import Verif.Model.F64
import Verif.Model.Aggregation
import Verif.Model.Aggregator
import Verif.Spec.History
import Verif.Lemmas.Base
import Verif.Lemmas.Aggregation
import Verif.Lemmas.ErrorCounter
import Verif.Lemmas.Window
import Verif.Lemmas.Clone
import Verif.Lemmas.Segments
import Verif.Lemmas.Exact
import Verif.Model.Stream
import Verif.Spec.Stream
import Verif.Lemmas.Stream
import Verif.Lemmas.StreamOk
import Verif.Lemmas.StreamKvs
import Verif.Props.Aggregator
import Verif.Spec.Counters
import Verif.Lemmas.Merge
import Verif.Lemmas.Counters
import Verif.Lemmas.MergeExtremes
import Verif.Props.Merge
import Verif.Props.Stream
import Verif.Model.Format
import Verif.Model.StatsD
import Verif.Spec.StatsD
import Verif.Lemmas.StatsD
import Verif.Lemmas.Format
import Verif.Lemmas.F64
import Verif.Props.StatsD
import Verif.Model.StatsDLoop
import Verif.Props.StatsDLoop
import Verif.Model.PollingSink
import Verif.Props.PollingSink
import Verif.Lemmas.Shortest
import Verif.Model.Utf8
import Verif.Model.Json
import Verif.Spec.Json
import Verif.Lemmas.Json
import Verif.Model.TimeText
import Verif.Spec.TimeText
import Verif.Lemmas.TimeText
import Verif.Model.Writer
import Verif.Spec.Writer
import Verif.Lemmas.Sort
import Verif.Props.Writer
import Verif.Spec.Utf8
import Verif.Lemmas.Utf8
import Verif.Lemmas.F64Mono
import Verif.Model.Fprintf
import Verif.Model.Metrics
import Verif.Model.Unmarshal
import Verif.Spec.Metrics
import Verif.Lemmas.Unmarshal
import Verif.Lemmas.Metrics
import Verif.Props.Metrics
import Verif.Model.Healthd
import Verif.Spec.Healthd
import Verif.Lemmas.Healthd
import Verif.Lemmas.HealthdRun
import Verif.Lemmas.Decoded
import Verif.Props.Healthd
import Verif.Props.HealthdSafe
import Verif.Model.Debouncer
import Verif.Props.Debouncer
import Verif.Model.HealthdLoop
import Verif.Props.HealthdLoop
import Verif.Lemmas.F64Err
import Verif.Lemmas.F64Sqrt
import Verif.Spec.Stats
import Verif.Lemmas.Stats
import Verif.Props.Stats
import Verif.Model.Api
import Verif.Spec.Api
import Verif.Lemmas.HealthdAll
import Verif.Props.Api
import Verif.Lemmas.Encode
import Verif.Props.ApiBody
import Verif.Model.Librato
import Verif.Spec.Librato
import Verif.Lemmas.Librato
import Verif.Props.Librato
import Verif.Model.Stack
import Verif.Model.Bugsnag
import Verif.Spec.Bugsnag
import Verif.Props.Bugsnag
import Verif.Model.RuntimeMetrics
import Verif.Spec.RuntimeMetrics
import Verif.Props.RuntimeMetrics
import Verif.Model.Query
import Verif.Model.Healthtop
import Verif.Spec.Healthtop
import Verif.Props.Healthtop
import Verif.Props.HealthtopDecoder
import Verif.Props.SinkLoop
import Verif.Props.EndToEnd
import Verif.Props.Heap
import Verif.Props.HealthdMain
import Verif.Props.ErrorObjects
import Verif.Props.HeapHealthd
import Verif.Spec.Fairness
import Verif.Lemmas.Fairness
import Verif.Props.Liveness
import Verif.Props.LivenessStatsD
import Verif.Props.LivenessSinks
import Verif.Props.LivenessHealthd
import Verif.Spec.HealthdHistory
import Verif.Lemmas.HealthdHistory
import Verif.Props.HealthdHistory
import Verif.Model.Addresses
import Verif.Spec.Addresses
import Verif.Props.Addresses
import Verif.Spec.Program
import Verif.Model.SinkCommands
import Verif.Props.Program
import Verif.Model.OwnHealth
import Verif.Spec.OwnHealth
import Verif.Props.OwnHealth
import Verif.Spec.System
import Verif.Props.System
import Verif.Model.Concurrent
import Verif.Spec.Concurrent
import Verif.Lemmas.Concurrent
import Verif.Lemmas.ConcurrentStep
import Verif.Props.Concurrent
import Verif.Spec.ConcurrentSystem
import Verif.Props.ConcurrentSystem
import Verif.Model.HealthdRun
import Verif.Spec.HealthdRun
import Verif.Props.HealthdRun
import Verif.Model.LogFile
import Verif.Spec.LogFile
import Verif.Props.LogFile
import Verif.Props.HealthdCrash
import Verif.Props.Exact
import Verif.Props.Decoder
import Verif.Props.LibratoSeries
import Verif.Props.StatsDServer
import Verif.Props.Percent
import Verif.Props.Server
import Verif.Props.MetricsHistory
import Verif.Props.Connections
import Verif.Props.HttpRequest
import Verif.Props.PanickingSinks
import Verif.Props.LibratoSettings
import Verif.Props.PollRounds
import Verif.Model.TopText
import Verif.Spec.TopText
import Verif.Props.TopText
import Verif.Props.StatsDNetwork
import Verif.Model.Watch
import Verif.Spec.Watch
import Verif.Lemmas.Watch
import Verif.Props.Watch
import Verif.Model.Nested
import Verif.Spec.Nested
import Verif.Props.Nested
import Verif.Spec.WatchGrows
import Verif.Props.WatchGrows
import Verif.Props.StatsDStop
import Verif.Props.HealthdRounds
import Verif.Props.StatsDPeriod
import Verif.Props.HealthdMemory
import Verif.Props.StatsDMemory
import Verif.Props.StatsDKeys
import Verif.Props.HealthdRequests
import Verif.Props.StatsDReturns
import Verif.Props.StatsDDrains
import Verif.Props.SinkMemory
import Verif.Props.HealthtopPolls
import Verif.Props.HealthdPolls
import Verif.Model.Descriptors
import Verif.Props.Descriptors
import Verif.Props.PanickingRun
import Verif.Props.HealthdLeft
import Verif.Model.HealthdStops
import Verif.Props.HealthdStops
import Verif.Props.LivenessRounds
import Verif.Props.LivenessRoundsCase
import Verif.Props.WatchLive
import Verif.Props.WatchLiveCase
import Verif.Props.WatchLiveFew
import Verif.Props.LivenessHealthdFew
import Verif.Props.LivenessHealthdMany
import Verif.Props.LivenessRoundsMany
import Verif.Props.LivenessRoundsFew
import Verif.Spec.Order
import Verif.Model.HealthdMemory
import Verif.Props.HealthdRaces
import Verif.Props.HealthdRacesWhen
