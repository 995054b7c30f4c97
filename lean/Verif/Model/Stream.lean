import Verif.Model.Aggregation
/-!
# Stream, Job, errors
Models /repo/health.go and /repo/error.go.  `map[string]string` values are references into a heap of maps, because
`mergedKeyValues` may hand out a live map.  One stream with any number of jobs and sinks; a sink is a number (its
identity), and what a sink does with a call is modelled separately (here only: sinks return normally).
Calls are sequential (one goroutine).
-/

/-- Program counters of a `stack.Trace` (stack/stack.go:11-14); opaque. -/
abbrev Trace := List Nat

/-- Go `error` values as health sees them: nil, `*MutedError`, `*UnmutedError` (with pointer identity, as its field `Emitted`
is mutable; the immutable fields are stored inline), anything else (its message).
Typed nil pointers are not modelled. error.go:7-15. -/
inductive GoErr where
  | nil
  | other (msg : Str)
  | muted (inner : GoErr)
  | unmuted (id : Nat) (inner : GoErr) (stack : Trace)
deriving DecidableEq, Repr

/-- error.go:17-23 `Error()`; `none` = nil pointer dereference. -/
def GoErr.message : GoErr → Option Str
  | .nil => none
  | .other m => some m
  | .muted e => e.message
  | .unmuted _ e _ => e.message

/-- error.go:25-27 `Mute`. -/
def mute (e : GoErr) : GoErr := .muted e

/-- the arguments of a `Sink` method other than job and kvs (health.go:60-66). -/
inductive Payload where
  | event (event : Str)
  | eventErr (event : Str) (err : GoErr)
  | timing (event : Str) (nanos : Int)
  | gauge (event : Str) (value : F64)
  | complete (status : Status) (nanos : Int)
deriving DecidableEq, Repr

/-- reference to a `map[string]string`; nil map = `none`. -/
abbrev MapRef := Option Nat

/-- One call of a sink method: the arguments, and what the mutable things among them looked like at that moment (contents of the
key/value map; field `Emitted` of the error). -/
structure SinkCall where
  sink : Nat
  job : Str
  payload : Payload
  kvs : MapRef
  seen : Option (GoMap Str Str)
  seenEmitted : Bool
deriving DecidableEq, Repr

/-- health.go:31-36 `Job` (the `Stream` pointer is implicit). -/
structure Job where
  name : Str
  kvs : MapRef
  start : Int
deriving DecidableEq, Repr

/-- The memory and the log of all sink calls made so far. `reads` is the number of clock readings so far. -/
structure World where
  maps : List (GoMap Str Str)
  emitted : List Nat
  nextErr : Nat
  sinks : List Nat
  kvs : MapRef
  jobs : List Job
  reads : Nat
  calls : List SinkCall
deriving DecidableEq, Repr

namespace World

/-- contents of a map reference; nil (and dangling) = nil map. -/
def deref (w : World) (r : MapRef) : Option (GoMap Str Str) := r.bind (w.maps[·]?)

/-- `len(m)`, 0 for nil. -/
def len (w : World) (r : MapRef) : Nat := ((w.deref r).map List.length).getD 0

/-- health.go:87-93 `NewJob`; the clock is an arbitrary function of the number of readings. -/
def newJob (clock : Nat → Int) (w : World) (name : Str) : World :=
  { w with jobs := w.jobs ++ [⟨name, none, clock w.reads⟩], reads := w.reads + 1 }

/-- health.go:68-72 `NewStream`; the embedded job "general" is job 0. -/
def newStream (clock : Nat → Int) : World := newJob clock ⟨[], [], 0, [], none, [], 0, []⟩ (bs "general")

/-- health.go:74-77 `AddSink`. -/
def addSink (w : World) (s : Nat) : World := { w with sinks := w.sinks ++ [s] }

/-- health.go:79-85, 95-101: the map to write to, allocated when nil. -/
def ensure (w : World) (r : MapRef) : World × Nat :=
  match r with
  | some i => (w, i)
  | none => ({ w with maps := w.maps ++ [[]] }, w.maps.length)

/-- `m[key] = value` for the map at `i`. -/
def mapSet (w : World) (i : Nat) (k v : Str) : World := { w with maps := w.maps.modify i (·.set k v) }

/-- health.go:79-85 `Stream.KeyValue`. -/
def streamKv (w : World) (k v : Str) : World :=
  let (w, i) := w.ensure w.kvs
  { w.mapSet i k v with kvs := some i }

/-- health.go:95-101 `Job.KeyValue`. -/
def jobKv (w : World) (j : Nat) (k v : Str) : World :=
  match w.jobs[j]? with
  | none => w
  | some job =>
    let (w, i) := w.ensure job.kvs
    { w.mapSet i k v with jobs := w.jobs.set j { job with kvs := some i } }

/-- the caller makes a map (e.g. the literal `Kvs{...}` of a Kv call). -/
def newMap (w : World) (m : GoMap Str Str) : World × Nat := ({ w with maps := w.maps ++ [m] }, w.maps.length)

/-- the range loop `for k, v := range m { allKvs[k] = v }` (health.go:204-212). -/
def copyInto (into : GoMap Str Str) (m : GoMap Str Str) : GoMap Str Str := m.foldl (fun a (k, v) => a.set k v) into

/-- health.go:183-216 `mergedKeyValues`. Returns the live map when only one of the three has contents. -/
def mergedKeyValues (w : World) (job : Job) (inst : MapRef) : World × MapRef :=
  let all : MapRef := none
  let n := 0
  let (n, all) := if w.len job.kvs > 0 then (n + 1, job.kvs) else (n, all)
  let (n, all) := if w.len w.kvs > 0 then (n + 1, w.kvs) else (n, all)
  let (n, all) := if w.len inst > 0 then (n + 1, inst) else (n, all)
  if n > 1 then
    let m := copyInto [] ((w.deref w.kvs).getD [])
    let m := copyInto m ((w.deref job.kvs).getD [])
    let m := copyInto m ((w.deref inst).getD [])
    let (w, r) := w.newMap m
    (w, some r)
  else (w, all)

/-- error.go:29-36 `wrapErr`; `trace` = `stack.NewTrace(2)`. -/
def wrapErr (w : World) (e : GoErr) (trace : Trace) : World × GoErr :=
  match e with
  | .muted i => (w, .muted i)
  | .unmuted id i s => (w, .unmuted id i s)
  | e => ({ w with nextErr := w.nextErr + 1 }, .unmuted w.nextErr e trace)

def isEmitted (w : World) : Payload → Bool
  | .eventErr _ (.unmuted id _ _) => decide (id ∈ w.emitted)
  | _ => false

/-- calling one sink method. -/
def callSink (w : World) (s : Nat) (job : Str) (p : Payload) (kvs : MapRef) : World :=
  { w with calls := w.calls ++ [⟨s, job, p, kvs, w.deref kvs, w.isEmitted p⟩] }

/-- `err.Emitted = true` (health.go:123-125, 135-137). -/
def markEmitted (w : World) : GoErr → World
  | .unmuted id _ _ => { w with emitted := w.emitted ++ [id] }
  | _ => w

/-- what the caller asks a job to emit: `Event`, `EventErr` (with the trace that would be captured), `Timing`, `Gauge`,
`Complete`. -/
inductive Call where
  | event (event : Str)
  | eventErr (event : Str) (err : GoErr) (trace : Trace)
  | timing (event : Str) (nanos : Int)
  | gauge (event : Str) (value : F64)
  | complete (status : Status)
deriving DecidableEq, Repr

/-- time.go `Time.Sub` (`time.Since(t)` is `time.Now().Sub(t)`), in nanoseconds: the difference, saturated to an int64. -/
def timeSub (t u : Int) : Int :=
  if t - u < -2 ^ 63 then -2 ^ 63 else if t - u > 2 ^ 63 - 1 then 2 ^ 63 - 1 else t - u

/-- health.go:103-181 `Event…`, `EventErr…`, `Timing…`, `Gauge…`, `Complete…` and their Kv variants of the job `j` (the plain
variants pass nil kvs).  Returns the error that EventErr returns (nil for the others). -/
def emit (clock : Nat → Int) (w : World) (j : Nat) (c : Call) (inst : MapRef) : World × GoErr :=
  match w.jobs[j]? with
  | none => (w, .nil)
  | some job =>
    match c with
    | .event ev =>
      let (w, kvs) := w.mergedKeyValues job inst
      (w.sinks.foldl (fun w s => w.callSink s job.name (.event ev) kvs) w, .nil)
    | .eventErr ev e trace =>
      let (w, e) := w.wrapErr e trace
      let (w, kvs) := w.mergedKeyValues job inst
      let w := w.sinks.foldl (fun w s => w.callSink s job.name (.eventErr ev e) kvs) w
      (w.markEmitted e, e)
    | .timing ev n =>
      let (w, kvs) := w.mergedKeyValues job inst
      (w.sinks.foldl (fun w s => w.callSink s job.name (.timing ev n) kvs) w, .nil)
    | .gauge ev v =>
      let (w, kvs) := w.mergedKeyValues job inst
      (w.sinks.foldl (fun w s => w.callSink s job.name (.gauge ev v) kvs) w, .nil)
    | .complete st =>
      let (w, kvs) := w.mergedKeyValues job inst
      (w.sinks.foldl (fun w s =>
        let n := timeSub (clock w.reads) job.start
        ({ w with reads := w.reads + 1 }).callSink s job.name (.complete st n) kvs) w, .nil)

/-- everything a program can do with the stream, in sequence. -/
inductive Op where
  | addSink (s : Nat)
  | streamKv (k v : Str)
  | newJob (name : Str)
  | jobKv (j : Nat) (k v : Str)
  | newMap (m : GoMap Str Str)
  | mapSet (i : Nat) (k v : Str)
  | emit (j : Nat) (c : Call) (kvs : MapRef)

def step (clock : Nat → Int) (w : World) : Op → World
  | .addSink s => w.addSink s
  | .streamKv k v => w.streamKv k v
  | .newJob n => w.newJob clock n
  | .jobKv j k v => w.jobKv j k v
  | .newMap m => (w.newMap m).1
  | .mapSet i k v => w.mapSet i k v
  | .emit j c kvs => (w.emit clock j c kvs).1

def run (clock : Nat → Int) (w : World) (ops : List Op) : World := ops.foldl (step clock) w

/-- How the function given to Run ends: normally with an error value, by `panic(v)` (with `fmt.Sprint(v)` as text), by
`panic(nil)` where `recover()` yields nil (Go before 1.21), or by `runtime.Goexit()`. -/
inductive Outcome where
  | ret (e : GoErr)
  | panic (text : Str)
  | panicNil
  | goexit
deriving DecidableEq, Repr

/-- How Run ends for its caller: returns an error value, or the goroutine exits. -/
inductive RunResult where
  | returned (e : GoErr)
  | exited
deriving DecidableEq, Repr

/-- health.go:223-245 `Job.Run` for the job `j`.  The function run does the operations `f` and then ends with `o` (a Run nested
in it amounts to further operations).  `stackText` is what `runtime.Stack` yields, `trace` what `stack.NewTrace` captures.
With `panicNil` the deferred function stops the panic and Run returns its named result, still nil; with `goexit` the
deferred function does nothing. -/
def runJob (clock : Nat → Int) (w : World) (j : Nat) (f : List Op) (o : Outcome) (stackText : Str) (trace : Trace) :
    World × RunResult :=
  let w := w.run clock f
  match o with
  | .ret .nil => ((w.emit clock j (.complete Status.success) none).1, .returned .nil)
  | .ret e => ((w.emit clock j (.complete Status.error) none).1, .returned e)
  | .panic text =>
    let (w, r) := w.newMap [(bs "stack", stackText)]
    let w := (w.emit clock j (.eventErr (bs "panic") (.other text) trace) (some r)).1
    ((w.emit clock j (.complete Status.panic) none).1, .returned (.other text))
  | .panicNil => (w, .returned .nil)
  | .goexit => (w, .exited)

/-- health.go:218-221 `Stream.Run`: the new job is the last one. -/
def runStream (clock : Nat → Int) (w : World) (name : Str) (f : List Op) (o : Outcome) (stackText : Str) (trace : Trace) :
    World × RunResult :=
  (w.newJob clock name).runJob clock w.jobs.length f o stackText trace

end World

/-! ## Bugsnag sink (sinks/bugsnag/sink.go) -/

/-- sinks/bugsnag/sink.go:16-21 `cmdEventErr`. -/
structure BugsnagReport where
  job : Str
  event : Str
  err : GoErr
  kvs : MapRef
deriving DecidableEq, Repr

/-- sinks/bugsnag/sink.go:41-68: what a Bugsnag sink queues for one call of a sink method. -/
def bugsnagReport (c : SinkCall) : Option BugsnagReport :=
  match c.payload with
  | .eventErr ev e =>
    match e with
    | .unmuted _ _ _ => if c.seenEmitted then none else some ⟨c.job, ev, e, c.kvs⟩
    | .muted _ => none
    | _ => none
  | _ => none

/-- the reports queued so far by the sink `s`, if it is a Bugsnag sink. -/
def bugsnagReports (w : World) (s : Nat) : List BugsnagReport :=
  (w.calls.filter (fun c => c.sink = s)).filterMap bugsnagReport
