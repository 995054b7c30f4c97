import Verif.Model.Base
import Verif.Model.F64
/-!
# IntervalAggregation: data, ingestion, Merge, Clone
Models /repo/interval_aggregation.go, interval_aggregation_merge.go, interval_aggregation_clone.go as pure values
(pointers inside maps are replaced by the values they point to; the heap model `Model/Heap*.lean` treats the aliasing).
-/

/-- The deep value of a non-nil Go `error`, i.e. what `reflect.DeepEqual` (interval_aggregation.go:103) compares,
encoded as bytes. Simplification: the value is taken when it is stored and does not change afterwards. -/
structure Err where
  deep : Str
deriving DecidableEq, Repr

/-- health.go:38-46 `type CompletionStatus int` and its constants. -/
abbrev Status := Int
namespace Status
def success : Status := 0
def validationError : Status := 1
def panic : Status := 2
def error : Status := 3
def junk : Status := 4
/-- health.go:48-58 `String()`: unknown statuses map to "" (zero value of a missing map entry). -/
def str (s : Status) : Str :=
  if s = success then bs "success"
  else if s = validationError then bs "validation_error"
  else if s = panic then bs "panic"
  else if s = error then bs "error"
  else if s = junk then bs "junk"
  else []
end Status

/-- interval_aggregation.go:43-49. -/
structure TimerAgg where
  count : Int
  nanosSum : Int
  nanosSumSquares : F64
  nanosMin : Int
  nanosMax : Int
deriving DecidableEq, Repr

/-- `&TimerAggregation{}` (zero value). -/
def TimerAgg.zero : TimerAgg := ⟨0, 0, .fin 0, 0, 0⟩

/-- interval_aggregation.go:139-150 `TimerAggregation.ingest`. -/
def TimerAgg.ingest (a : TimerAgg) (nanos : Int) : TimerAgg :=
  let count := i64 (a.count + 1)
  let floatNano := F64.ofInt nanos
  { count := count
    nanosSum := i64 (a.nanosSum + nanos)
    nanosSumSquares := F64.add a.nanosSumSquares (F64.mul floatNano floatNano)
    nanosMin := if count = 1 ∨ nanos < a.nanosMin then nanos else a.nanosMin
    nanosMax := if count = 1 ∨ nanos > a.nanosMax then nanos else a.nanosMax }

/-- interval_aggregation.go:51-57: count, `[5]error` ring (nil = `none`) and write index. -/
structure ErrorCounter where
  count : Int
  samples : List (Option Err)
  idx : Nat
deriving DecidableEq, Repr

/-- `len(ec.errorSamples)`: the array type is `[5]error` (interval_aggregation.go:55). -/
def ringSize : Nat := 5

/-- `&ErrorCounter{}`. -/
def ErrorCounter.zero : ErrorCounter := ⟨0, List.replicate ringSize none, 0⟩

/-- interval_aggregation.go:99-108 `addError`. `inputErr` may be a nil `error`. -/
def ErrorCounter.addError (ec : ErrorCounter) (inputErr : Option Err) : ErrorCounter :=
  match (ec.samples[ec.idx]?).join with
  | none => { ec with samples := ec.samples.set ec.idx inputErr }
  | some lastErr =>
    if some lastErr ≠ inputErr then
      let n := ec.samples.length
      let idx' := (ec.idx + 1) % n
      { ec with idx := idx', samples := ec.samples.set idx' inputErr }
    else ec

/-- interval_aggregation.go:94-97 `incrementAndAddError`. -/
def ErrorCounter.incrementAndAddError (ec : ErrorCounter) (e : Option Err) : ErrorCounter :=
  ({ ec with count := i64 (ec.count + 1) }).addError e

/-- interval_aggregation.go:110-127 `getErrorSamples`: the non-nil entries in array order. -/
def ErrorCounter.getErrorSamples (ec : ErrorCounter) : List Err := ec.samples.filterMap id

/-- interval_aggregation.go:25-30 `aggregationMaps`. -/
structure AggMaps where
  timers : GoMap Str TimerAgg
  gauges : GoMap Str F64
  events : GoMap Str Int
  eventErrs : GoMap Str ErrorCounter
deriving DecidableEq, Repr

/-- interval_aggregation.go:69-74 `initAggregationMaps`. -/
def AggMaps.init : AggMaps := ⟨[], [], [], []⟩

/-- interval_aggregation.go:32-41 `JobAggregation` (embedded aggregationMaps and TimerAggregation). -/
structure JobAgg where
  maps : AggMaps
  timer : TimerAgg
  countSuccess : Int
  countValidationError : Int
  countPanic : Int
  countError : Int
  countJunk : Int
deriving DecidableEq, Repr

/-- `&JobAggregation{}` followed by `initAggregationMaps` (interval_aggregation.go:132-133). -/
def JobAgg.init : JobAgg := ⟨AggMaps.init, TimerAgg.zero, 0, 0, 0, 0, 0⟩

/-- interval_aggregation.go:9-23 `IntervalAggregation`. -/
structure IntAgg where
  start : Time
  serial : Int
  jobs : GoMap Str JobAgg
  maps : AggMaps
deriving DecidableEq, Repr

/-- interval_aggregation.go:59-67 `NewIntervalAggregation`. -/
def IntAgg.new (start : Time) : IntAgg := ⟨start, 0, [], AggMaps.init⟩

/-- `m[k]` with the zero value for a missing key, as in `intAgg.Events[event] + 1` (aggregator.go:83). -/
def GoMap.getD {V : Type} (m : GoMap Str V) (k : Str) (d : V) : V := (m.get? k).getD d

/-- aggregator.go:83,85 `Events[event] = Events[event] + 1`. -/
def AggMaps.incEvent (am : AggMaps) (event : Str) : AggMaps :=
  { am with events := am.events.set event (i64 (am.events.getD event 0 + 1)) }

/-- interval_aggregation.go:76-83 `getCounterErrs` followed by `incrementAndAddError` (aggregator.go:91-92,94-95). -/
def AggMaps.addErr (am : AggMaps) (event : Str) (e : Option Err) : AggMaps :=
  { am with eventErrs := am.eventErrs.set event ((am.eventErrs.getD event ErrorCounter.zero).incrementAndAddError e) }

/-- interval_aggregation.go:85-92 `getTimers` followed by `ingest` (aggregator.go:101-102,104-105). -/
def AggMaps.addTiming (am : AggMaps) (event : Str) (nanos : Int) : AggMaps :=
  { am with timers := am.timers.set event ((am.timers.getD event TimerAgg.zero).ingest nanos) }

/-- aggregator.go:111,113 `Gauges[event] = value`. -/
def AggMaps.setGauge (am : AggMaps) (event : Str) (v : F64) : AggMaps :=
  { am with gauges := am.gauges.set event v }

/-- interval_aggregation.go:152-165 `JobAggregation.ingest`. -/
def JobAgg.ingest (a : JobAgg) (status : Status) (nanos : Int) : JobAgg :=
  let a := { a with timer := a.timer.ingest nanos }
  if status = Status.success then { a with countSuccess := i64 (a.countSuccess + 1) }
  else if status = Status.validationError then { a with countValidationError := i64 (a.countValidationError + 1) }
  else if status = Status.panic then { a with countPanic := i64 (a.countPanic + 1) }
  else if status = Status.error then { a with countError := i64 (a.countError + 1) }
  else if status = Status.junk then { a with countJunk := i64 (a.countJunk + 1) }
  else a

/-- interval_aggregation.go:129-137 `getJobAggregation` and an in-place update of the job found or created. -/
def IntAgg.updJob (ia : IntAgg) (job : Str) (f : JobAgg → JobAgg) : IntAgg :=
  { ia with jobs := ia.jobs.set job (f (ia.jobs.getD job JobAgg.init)) }

/-! ## Merge (interval_aggregation_merge.go) -/

/-- interval_aggregation_merge.go:29-39 `TimerAggregation.merge`. -/
def TimerAgg.merge (into frm : TimerAgg) : TimerAgg :=
  { count := i64 (into.count + frm.count)
    nanosSum := i64 (into.nanosSum + frm.nanosSum)
    nanosSumSquares := F64.add into.nanosSumSquares frm.nanosSumSquares
    nanosMin := if frm.nanosMin < into.nanosMin then frm.nanosMin else into.nanosMin
    nanosMax := if frm.nanosMax > into.nanosMax then frm.nanosMax else into.nanosMax }

/-- interval_aggregation_merge.go:60-67: adding the count and re-adding the other side's non-nil samples. -/
def ErrorCounter.merge (into frm : ErrorCounter) : ErrorCounter :=
  frm.samples.foldl (fun ec e => if e.isSome then ec.addError e else ec)
    { into with count := i64 (into.count + frm.count) }

/-- interval_aggregation_merge.go:42-44: `for k, v := range fromAm.Events { intoAm.Events[k] += v }`. -/
def mergeEvents (into frm : GoMap Str Int) : GoMap Str Int :=
  frm.foldl (fun m (k, v) => m.set k (i64 (m.getD k 0 + v))) into

/-- interval_aggregation_merge.go:46-48. -/
def mergeGauges (into frm : GoMap Str F64) : GoMap Str F64 :=
  frm.foldl (fun m (k, v) => m.set k v) into

/-- interval_aggregation_merge.go:50-56 (`v.Clone()` is `v` as a value). -/
def mergeTimers (into frm : GoMap Str TimerAgg) : GoMap Str TimerAgg :=
  frm.foldl (fun m (k, v) =>
    match m.get? k with
    | some existing => m.set k (existing.merge v)
    | none => m.set k v) into

/-- interval_aggregation_merge.go:58-71. -/
def mergeErrs (into frm : GoMap Str ErrorCounter) : GoMap Str ErrorCounter :=
  frm.foldl (fun m (k, v) =>
    match m.get? k with
    | some existing => m.set k (existing.merge v)
    | none => m.set k v) into

/-- interval_aggregation_merge.go:41-72 `aggregationMaps.merge`. -/
def AggMaps.merge (into frm : AggMaps) : AggMaps :=
  { events := mergeEvents into.events frm.events
    gauges := mergeGauges into.gauges frm.gauges
    timers := mergeTimers into.timers frm.timers
    eventErrs := mergeErrs into.eventErrs frm.eventErrs }

/-- interval_aggregation_merge.go:19-27 `JobAggregation.merge`. -/
def JobAgg.merge (into frm : JobAgg) : JobAgg :=
  { maps := into.maps.merge frm.maps
    timer := into.timer.merge frm.timer
    countSuccess := i64 (into.countSuccess + frm.countSuccess)
    countValidationError := i64 (into.countValidationError + frm.countValidationError)
    countPanic := i64 (into.countPanic + frm.countPanic)
    countError := i64 (into.countError + frm.countError)
    countJunk := i64 (into.countJunk + frm.countJunk) }

/-! ## Clone (interval_aggregation_clone.go): copies every map entry into a new map -/

/-- interval_aggregation_clone.go:18-40 `aggregationMaps.Clone`: insert every entry into fresh maps. -/
def AggMaps.clone (am : AggMaps) : AggMaps :=
  { events := am.events.foldl (fun m (k, v) => m.set k v) []
    gauges := am.gauges.foldl (fun m (k, v) => m.set k v) []
    timers := am.timers.foldl (fun m (k, v) => m.set k v) []
    eventErrs := am.eventErrs.foldl (fun m (k, v) => m.set k v) [] }

/-- interval_aggregation_clone.go:52-65 `JobAggregation.Clone`. -/
def JobAgg.clone (ja : JobAgg) : JobAgg :=
  { maps := ja.maps.clone, timer := ja.timer,
    countSuccess := ja.countSuccess, countValidationError := ja.countValidationError,
    countPanic := ja.countPanic, countError := ja.countError, countJunk := ja.countJunk }

/-- interval_aggregation_clone.go:4-16 `IntervalAggregation.Clone`. -/
def IntAgg.clone (ia : IntAgg) : IntAgg :=
  { start := ia.start, serial := ia.serial, maps := ia.maps.clone
    jobs := ia.jobs.foldl (fun m (k, v) => m.set k v.clone) [] }

/-! ## Merge of whole aggregations (interval_aggregation_merge.go) -/

/-- interval_aggregation_merge.go:8-14. -/
def mergeJobs (into frm : GoMap Str JobAgg) : GoMap Str JobAgg :=
  frm.foldl (fun m (k, v) =>
    match m.get? k with
    | some existing => m.set k (existing.merge v)
    | none => m.set k v.clone) into

/-- interval_aggregation_merge.go:5-17 `IntervalAggregation.Merge`. -/
def IntAgg.merge (ia frm : IntAgg) : IntAgg :=
  { start := ia.start
    maps := ia.maps.merge frm.maps
    jobs := mergeJobs ia.jobs frm.jobs
    serial := i64 (ia.serial + 1) }
