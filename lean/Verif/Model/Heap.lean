import Verif.Model.Aggregator
/-!
# The interval aggregations in memory
Models /repo/interval_aggregation.go, interval_aggregation_clone.go, interval_aggregation_merge.go and aggregator.go once more, this time
with the pointers: which objects exist, which object points to which, which object is written.  (`Model/Aggregation.lean` and
`Model/Aggregator.lean` replace pointers by what they point to; `Props/Heap.lean` proves that this makes no difference.)

One cell is one Go object: a struct, a map or the array behind a slice.  Filling in a new struct is part of allocating it.
Simplified: the errors in an `ErrorCounter` are values here (this code never writes to them); nil maps and nil pointers do not occur (the code
requires it, interval_aggregation_merge.go:4); a read of the wrong type or of a dangling pointer is `none` (Go has neither).
-/
namespace Mem

/-- addresses are numbers. -/
scoped notation "Addr" => Nat

/-- interval_aggregation.go:25-30 `aggregationMaps`, a part of two structs: references to four maps. -/
structure Maps where
  timers : Addr
  gauges : Addr
  events : Addr
  eventErrs : Addr
deriving DecidableEq, Repr

/-- interval_aggregation.go:36-40. -/
structure Counts where
  success : Int
  validationError : Int
  panic : Int
  error : Int
  junk : Int
deriving DecidableEq, Repr

/-- A Go object. -/
inductive Cell where
  /-- interval_aggregation.go:9-23 `IntervalAggregation` -/
  | int (start : Time) (serial : Int) (jobs : Addr) (maps : Maps)
  /-- interval_aggregation.go:32-41 `JobAggregation` -/
  | job (maps : Maps) (timer : TimerAgg) (counts : Counts)
  /-- interval_aggregation.go:43-49 `TimerAggregation` -/
  | timer (t : TimerAgg)
  /-- interval_aggregation.go:51-57 `ErrorCounter` -/
  | errs (e : ErrorCounter)
  /-- a map from names to pointers -/
  | refs (m : GoMap Str Addr)
  /-- `map[string]float64` -/
  | floats (m : GoMap Str F64)
  /-- `map[string]int64` -/
  | ints (m : GoMap Str Int)
  /-- the array behind a slice of pointers: its elements in use -/
  | array (l : List Addr)
deriving DecidableEq, Repr

/-- The memory: the objects by address, and the addresses that were written so far, the last one first. -/
structure Heap where
  cells : List Cell
  written : List Addr
deriving DecidableEq, Repr

/-- a piece of code: what it does to the memory, and its result. -/
def Cmd (α : Type) := Heap → Option (α × Heap)

instance : Monad Cmd where
  pure a := fun h => some (a, h)
  bind m f := fun h => (m h).bind fun (a, h') => f a h'

/-- `&T{…}`, `make(map…)`. -/
def alloc (c : Cell) : Cmd Addr := fun h => some (h.cells.length, { h with cells := h.cells ++ [c] })
def load (a : Addr) : Cmd Cell := fun h => (h.cells[a]?).map fun c => (c, h)
def store (a : Addr) (c : Cell) : Cmd Unit := fun h =>
  if a < h.cells.length then some ((), ⟨h.cells.set a c, a :: h.written⟩) else none

def fail {α : Type} : Cmd α := fun _ => none

def loadInt (a : Addr) : Cmd (Time × Int × Addr × Maps) := do
  match ← load a with
  | .int s n j m => pure (s, n, j, m)
  | _ => fail
def loadJob (a : Addr) : Cmd (Maps × TimerAgg × Counts) := do
  match ← load a with
  | .job m t c => pure (m, t, c)
  | _ => fail
def loadTimer (a : Addr) : Cmd TimerAgg := do
  match ← load a with
  | .timer t => pure t
  | _ => fail
def loadErrs (a : Addr) : Cmd ErrorCounter := do
  match ← load a with
  | .errs e => pure e
  | _ => fail
def loadRefs (a : Addr) : Cmd (GoMap Str Addr) := do
  match ← load a with
  | .refs m => pure m
  | _ => fail
def loadFloats (a : Addr) : Cmd (GoMap Str F64) := do
  match ← load a with
  | .floats m => pure m
  | _ => fail
def loadInts (a : Addr) : Cmd (GoMap Str Int) := do
  match ← load a with
  | .ints m => pure m
  | _ => fail
def loadArray (a : Addr) : Cmd (List Addr) := do
  match ← load a with
  | .array l => pure l
  | _ => fail

/-- `for k, v := range l { … }`. -/
def forEach {α : Type} (l : List α) (f : α → Cmd Unit) : Cmd Unit :=
  match l with
  | [] => pure ()
  | x :: t => do f x; forEach t f

/-! ## interval_aggregation.go -/

/-- interval_aggregation.go:69-74 `initAggregationMaps`. -/
def initMaps : Cmd Maps := do
  let timers ← alloc (.refs [])
  let gauges ← alloc (.floats [])
  let events ← alloc (.ints [])
  let eventErrs ← alloc (.refs [])
  pure ⟨timers, gauges, events, eventErrs⟩

/-- interval_aggregation.go:59-67 `NewIntervalAggregation`. -/
def newInt (start : Time) : Cmd Addr := do
  let jobs ← alloc (.refs [])
  let maps ← initMaps
  alloc (.int start 0 jobs maps)

/-- the pattern of interval_aggregation.go:76-92, 129-137: look up a pointer in a map; if there is none, make an object and put it in. -/
def getOrCreate (map : Addr) (k : Str) (make : Cmd Addr) : Cmd Addr := do
  match (← loadRefs map).get? k with
  | some a => pure a
  | none => do
    let a ← make
    let m ← loadRefs map
    store map (.refs (m.set k a))
    pure a

/-- interval_aggregation.go:76-83 `getCounterErrs`. -/
def getCounterErrs (ms : Maps) (event : Str) : Cmd Addr := getOrCreate ms.eventErrs event (alloc (.errs ErrorCounter.zero))
/-- interval_aggregation.go:85-92 `getTimers`. -/
def getTimers (ms : Maps) (event : Str) : Cmd Addr := getOrCreate ms.timers event (alloc (.timer TimerAgg.zero))
/-- interval_aggregation.go:132-133. -/
def newJob : Cmd Addr := do
  let maps ← initMaps
  alloc (.job maps TimerAgg.zero ⟨0, 0, 0, 0, 0⟩)
/-- interval_aggregation.go:129-137 `getJobAggregation`, `jobs`: the map `ia.Jobs`. -/
def getJobAggregation (jobs : Addr) (job : Str) : Cmd Addr := getOrCreate jobs job newJob

/-- interval_aggregation.go:139-150 `TimerAggregation.ingest`. -/
def ingestTimer (a : Addr) (nanos : Int) : Cmd Unit := do
  let t ← loadTimer a
  store a (.timer (t.ingest nanos))

/-- interval_aggregation.go:94-108 `incrementAndAddError`, `addError`. -/
def addErr (a : Addr) (e : Option Err) : Cmd Unit := do
  let ec ← loadErrs a
  store a (.errs (ec.incrementAndAddError e))

/-- the job that a `JobAggregation` struct holds apart from its maps. -/
def jobVal (t : TimerAgg) (c : Counts) (maps : AggMaps) : JobAgg := ⟨maps, t, c.success, c.validationError, c.panic, c.error, c.junk⟩
def countsOf (j : JobAgg) : Counts := ⟨j.countSuccess, j.countValidationError, j.countPanic, j.countError, j.countJunk⟩

/-- interval_aggregation.go:152-165 `JobAggregation.ingest`. -/
def ingestJob (a : Addr) (status : Status) (nanos : Int) : Cmd Unit := do
  let (ms, t, c) ← loadJob a
  let j := (jobVal t c .init).ingest status nanos
  store a (.job ms j.timer (countsOf j))

/-! ## aggregator.go: emissions -/

/-- aggregator.go:83, 85. -/
def incEvent (ms : Maps) (event : Str) : Cmd Unit := do
  let m ← loadInts ms.events
  store ms.events (.ints (m.set event (i64 (m.getD event 0 + 1))))

/-- aggregator.go:111, 113. -/
def setGauge (ms : Maps) (event : Str) (v : F64) : Cmd Unit := do
  let m ← loadFloats ms.gauges
  store ms.gauges (.floats (m.set event v))

/-- aggregator.go:91-92, 94-95. -/
def countErr (ms : Maps) (event : Str) (e : Option Err) : Cmd Unit := do
  let errc ← getCounterErrs ms event
  addErr errc e

/-- aggregator.go:101-102, 104-105. -/
def addTiming (ms : Maps) (event : Str) (nanos : Int) : Cmd Unit := do
  let t ← getTimers ms event
  ingestTimer t nanos

/-- the first and the third step of `EmitEvent` … `EmitGauge`: the same thing in the maps of the interval and in those of the job. -/
def emitMaps (ms : Maps) : Emit → Cmd Unit
  | .event _ event => incEvent ms event
  | .eventErr _ event e => countErr ms event e
  | .timing _ event n => addTiming ms event n
  | .gauge _ event v => setGauge ms event v
  | .complete _ _ _ => pure ()

/-- `intAgg.SerialNumber++`. -/
def bump (a : Addr) : Cmd Unit := do
  let (s, n, j, ms) ← loadInt a
  store a (.int s (i64 (n + 1)) j ms)

def jobOf : Emit → Str
  | .event job _ => job
  | .eventErr job _ _ => job
  | .timing job _ _ => job
  | .gauge job _ _ => job
  | .complete job _ _ => job

/-- aggregator.go:85, 94-95, 104-105, 113, 120: what is done to the job. -/
def emitJob (j : Addr) (e : Emit) : Cmd Unit :=
  match e with
  | .complete _ st n => ingestJob j st n
  | e => do
    let (jms, _, _) ← loadJob j
    emitMaps jms e

/-- aggregator.go:81-122 `EmitEvent`, `EmitEventErr`, `EmitTiming`, `EmitGauge`, `EmitComplete`, after the call of `getIntervalAggregation`. -/
def emitInt (a : Addr) (e : Emit) : Cmd Unit := do
  let (_, _, jobs, ms) ← loadInt a
  emitMaps ms e
  let j ← getJobAggregation jobs (jobOf e)
  emitJob j e
  bump a

/-! ## interval_aggregation_clone.go -/

/-- interval_aggregation_clone.go:42-45 `TimerAggregation.Clone`. -/
def cloneTimer (a : Addr) : Cmd Addr := do
  let t ← loadTimer a
  alloc (.timer t)

/-- interval_aggregation_clone.go:47-50 `ErrorCounter.Clone`. -/
def cloneErrs (a : Addr) : Cmd Addr := do
  let e ← loadErrs a
  alloc (.errs e)

/-- `for k, v := range m { dup[k] = v.Clone() }`. -/
def cloneRefs (dup : Addr) (m : GoMap Str Addr) (clone : Addr → Cmd Addr) : Cmd Unit :=
  forEach m fun (k, v) => do
    let c ← clone v
    let d ← loadRefs dup
    store dup (.refs (d.set k c))

/-- interval_aggregation_clone.go:18-40 `aggregationMaps.Clone` (the struct is copied into the caller's at once). -/
def cloneMaps (am : Maps) : Cmd Maps := do
  let dup ← initMaps
  forEach (← loadInts am.events) fun (k, v) => do
    let d ← loadInts dup.events
    store dup.events (.ints (d.set k v))
  forEach (← loadFloats am.gauges) fun (k, v) => do
    let d ← loadFloats dup.gauges
    store dup.gauges (.floats (d.set k v))
  cloneRefs dup.timers (← loadRefs am.timers) cloneTimer
  cloneRefs dup.eventErrs (← loadRefs am.eventErrs) cloneErrs
  pure dup

/-- interval_aggregation_clone.go:52-65 `JobAggregation.Clone`. -/
def cloneJob (a : Addr) : Cmd Addr := do
  let (ms, t, c) ← loadJob a
  let dup ← cloneMaps ms
  alloc (.job dup t c)

/-- interval_aggregation_clone.go:4-16 `IntervalAggregation.Clone`. -/
def cloneInt (a : Addr) : Cmd Addr := do
  let (start, serial, jobs, ms) ← loadInt a
  let dup ← cloneMaps ms
  let dupJobs ← alloc (.refs [])
  cloneRefs dupJobs (← loadRefs jobs) cloneJob
  alloc (.int start serial dupJobs dup)

/-! ## interval_aggregation_merge.go -/

/-- the pattern of interval_aggregation_merge.go:8-14, 50-56, 58-71: merge into the object that is there, or put in a clone. -/
def mergeRefs (into : Addr) (frm : GoMap Str Addr) (merge : Addr → Addr → Cmd Unit) (clone : Addr → Cmd Addr) : Cmd Unit :=
  forEach frm fun (k, v) => do
    match (← loadRefs into).get? k with
    | some existing => merge existing v
    | none => do
      let c ← clone v
      let d ← loadRefs into
      store into (.refs (d.set k c))

/-- interval_aggregation_merge.go:29-39 `TimerAggregation.merge`. -/
def mergeTimer (into frm : Addr) : Cmd Unit := do
  let f ← loadTimer frm
  let t ← loadTimer into
  store into (.timer (t.merge f))

/-- interval_aggregation_merge.go:60-67. -/
def mergeErrc (into frm : Addr) : Cmd Unit := do
  let f ← loadErrs frm
  let e ← loadErrs into
  store into (.errs (e.merge f))

/-- interval_aggregation_merge.go:41-72 `aggregationMaps.merge`. -/
def mergeMaps (into frm : Maps) : Cmd Unit := do
  forEach (← loadInts frm.events) fun (k, v) => do
    let d ← loadInts into.events
    store into.events (.ints (d.set k (i64 (d.getD k 0 + v))))
  forEach (← loadFloats frm.gauges) fun (k, v) => do
    let d ← loadFloats into.gauges
    store into.gauges (.floats (d.set k v))
  mergeRefs into.timers (← loadRefs frm.timers) mergeTimer cloneTimer
  mergeRefs into.eventErrs (← loadRefs frm.eventErrs) mergeErrc cloneErrs

/-- interval_aggregation_merge.go:19-27 `JobAggregation.merge`. -/
def mergeJob (into frm : Addr) : Cmd Unit := do
  let (ims, _, _) ← loadJob into
  let (fms, ft, fc) ← loadJob frm
  mergeMaps ims fms
  let (_, t, c) ← loadJob into
  let j := (jobVal t c .init).merge (jobVal ft fc .init)
  store into (.job ims j.timer (countsOf j))

/-- interval_aggregation_merge.go:5-17 `IntervalAggregation.Merge`. -/
def mergeInt (into frm : Addr) : Cmd Unit := do
  let (_, _, ijobs, ims) ← loadInt into
  let (_, _, fjobs, fms) ← loadInt frm
  mergeMaps ims fms
  mergeRefs ijobs (← loadRefs fjobs) mergeJob cloneJob
  bump into

/-! ## aggregator.go: the window -/

/-- aggregator.go:7-20; `intervals`: the array behind the slice `intervalAggregations`.  Its capacity is `maxIntervals` (:62), so that
`append` (:147) writes to the same array. -/
structure Agg where
  intervalDuration : Int
  retain : Int
  maxIntervals : Int
  intervals : Addr
deriving DecidableEq, Repr

/-- aggregator.go:56-64 `newAggregator`. -/
def newAgg (intervalDuration retain : Int) : Cmd Agg :=
  if intervalDuration = 0 then fail
  else
    let maxIntervals := Int.tdiv retain intervalDuration
    if maxIntervals < 0 then fail
    else do
      let arr ← alloc (.array [])
      pure ⟨intervalDuration, retain, maxIntervals, arr⟩

/-- aggregator.go:135-151 `createIntervalAggregation`. -/
def createInt (a : Agg) (interval : Time) : Cmd Addr := do
  let current ← newInt interval
  let l ← loadArray a.intervals
  if (l.length : Int) = a.maxIntervals then
    if l.length = 0 then fail
    else do
      store a.intervals (.array (l.tail ++ [current]))
      pure current
  else do
    store a.intervals (.array (l ++ [current]))
    pure current

/-- aggregator.go:124-133 `getIntervalAggregation`. -/
def getInt (a : Agg) (now : Time) : Cmd Addr := do
  let intervalStart := now.truncate a.intervalDuration
  match (← loadArray a.intervals).getLast? with
  | some last => do
    let (start, _, _, _) ← loadInt last
    if start = intervalStart then pure last else createInt a intervalStart
  | none => createInt a intervalStart

/-- aggregator.go:70-76: the loop. -/
def copyAll (cur : Addr) : List Addr → Cmd (List Addr)
  | [] => pure []
  | p :: t => do
    let p' ← if p = cur then cloneInt p else pure p
    let t' ← copyAll cur t
    pure (p' :: t')

/-- aggregator.go:66-79 `memorySafeIntervals`: the array behind the slice returned. -/
def memorySafeIntervals (a : Agg) (now : Time) : Cmd Addr := do
  let cur ← getInt a now
  let out ← copyAll cur (← loadArray a.intervals)
  alloc (.array out)

/-- A running polling sink: its memory, the aggregator and the snapshots handed out so far, the last one first. -/
structure Sink where
  heap : Heap
  agg : Agg
  snapshots : List Addr
deriving DecidableEq, Repr

/-- json_polling_sink.go:35-49: a new sink. -/
def start (d r : Int) : Option Sink := (newAgg d r ⟨[], []⟩).map fun (a, h) => ⟨h, a, []⟩

/-- aggregator.go:36-51: one iteration of the loop. -/
def Sink.step (s : Sink) (now : Time) : AggOp → Option Sink
  | .emit e => ((do emitInt (← getInt s.agg now) e : Cmd Unit) s.heap).map fun (_, h) => { s with heap := h }
  | .tick => (getInt s.agg now s.heap).map fun (_, h) => { s with heap := h }
  | .read => (Mem.memorySafeIntervals s.agg now s.heap).map fun (snap, h) => { s with heap := h, snapshots := snap :: s.snapshots }

/-- a whole history. -/
def Sink.run (s : Sink) : List (Time × AggOp) → Option Sink
  | [] => some s
  | (t, op) :: h => (s.step t op).bind (·.run h)

end Mem
