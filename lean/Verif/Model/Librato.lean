import Verif.Model.Stream
import Verif.Model.Metrics
import Verif.Model.Utf8
/-!
# Librato sink
Models /repo/sinks/librato/sink.go: names, counters, measurements and the body posted at a flush.
Not modelled: the HTTP request itself (a failing request is printed and the data are dropped like those of a successful one, so the
state does not depend on it), the copy of the body printed on standard output, `Stop`.
The goroutine and its channels are in Verif/Model/SinkLoop.lean.
-/
namespace Librato

/-- what can be set: sink.go:16-19 `SanitizationFunc`, `Source`, `FlushPeriod` (nanoseconds) and :33 `prefix`.
A custom `SanitizationFunc` is assumed to be a function of the name. -/
structure Opts where
  pfx : Str
  sanitize : Str → Str
  source : Str
  flushPeriod : Int

/-- sink.go:39-46 `gauge`, without the attributes (always `defaultTimerAttributes`, :65). -/
structure Gauge where
  count : Int
  sum : F64
  min : F64
  max : F64
  sumSquares : F64
deriving DecidableEq, Repr

/-- sink.go:35-36. -/
structure State where
  timers : GoMap Str Gauge
  counters : GoMap Str Int
deriving Repr

/-- sink.go:314-332 `shouldSanitize`, for the runes of a `range` loop: a byte below 0x80 is its own rune; runes of several bytes and
ill-formed bytes (RuneError) are none of the valid characters. -/
def shouldSanitize : Rune → Bool
  | .ascii b => !decide ((65 ≤ b ∧ b ≤ 90) ∨ (97 ≤ b ∧ b ≤ 122) ∨ (48 ≤ b ∧ b ≤ 57) ∨ b = 46 ∨ b = 58 ∨ b = 45 ∨ b = 95)
  | .multi _ => true
  | .bad _ => true

/-- sink.go:334-351 `sanitizeKey`. -/
def sanitizeKey (k : Str) : Str :=
  if (runes k).any shouldSanitize then (runes k).flatMap (fun r => if shouldSanitize r then [95] else r.bytes)
  else k

/-- sink.go:208-232 `eventKeys`: key1 (event), key2 (job.event). -/
def eventKeys (o : Opts) (job event suffix : Str) : Str × Str :=
  let p := if o.pfx ≠ [] then o.pfx ++ [46] else []
  let key1 := p ++ o.sanitize event
  let key2 := p ++ o.sanitize job ++ [46] ++ o.sanitize event
  if suffix ≠ [] then (key1 ++ [46] ++ suffix, key2 ++ [46] ++ suffix) else (key1, key2)

/-- sink.go:234-236 `inc`. -/
def inc (s : State) (key : Str) : State := { s with counters := s.counters.set key (i64 (s.counters.getD key 0 + 1)) }

/-- sink.go:238-255 `measure`. -/
def measure (s : State) (key : Str) (value : F64) : State :=
  match s.timers.get? key with
  | none => { s with timers := s.timers.set key ⟨1, value, value, value, value.mul value⟩ }
  | some g =>
    let min := if value.lt g.min then value else g.min
    let max := if g.max.lt value then value else g.max
    { s with timers := s.timers.set key ⟨i64 (g.count + 1), g.sum.add value, min, max, g.sumSquares.add (value.mul value)⟩ }

/-- float64(nanos) / float64(time.Millisecond), sink.go:181 and :204. -/
def millis (nanos : Int) : F64 := (F64.ofInt nanos).div (F64.ofInt 1000000)

/-- sink.go:167-206 `processEvent` … `processComplete`. -/
def process (o : Opts) (s : State) (job : Str) : Payload → State
  | .event e =>
    let k := eventKeys o job e (bs "count")
    inc (inc s k.1) k.2
  | .eventErr e _ =>
    let k := eventKeys o job e (bs "error.count")
    inc (inc s k.1) k.2
  | .timing e nanos =>
    let k := eventKeys o job e (bs "timing")
    measure (measure s k.1 (millis nanos)) k.2 (millis nanos)
  | .gauge e v =>
    let k := eventKeys o job e (bs "gauge")
    measure (measure s k.1 v) k.2 v
  | .complete status nanos =>
    let key := (if o.pfx ≠ [] then o.pfx ++ [46] else []) ++ o.sanitize job ++ [46] ++ status.str ++ bs ".timing"
    measure s key (millis nanos)

/-- a value of the map `gauges` of sink.go:278: a `*gauge` or a `libratoCounterValue`. -/
inductive Entry where
  | gauge (g : Gauge)
  | counter (n : Int)
deriving DecidableEq, Repr

/-- sink.go:48-51 and :65-66. -/
def attributes (units : Str) : JVal := .obj [(bs "aggregate", .bool true), (bs "display_units_long", .str units)]

/-- sink.go:39-56, the JSON of the two. -/
def Entry.toJson : Entry → JVal
  | .gauge g =>
    .obj [(bs "count", .int g.count), (bs "sum", .float g.sum), (bs "min", .float g.min), (bs "max", .float g.max),
      (bs "sum_squares", .float g.sumSquares), (bs "attributes", attributes (bs "ms"))]
  | .counter n => .obj [(bs "value", .int n), (bs "attributes", attributes (bs "count"))]

/-- sink.go:278-287: the map `gauges`. -/
def entries (s : State) : GoMap Str Entry :=
  let gauges : GoMap Str Entry := s.timers.foldl (fun (m : GoMap Str Entry) p => m.set p.1 (.gauge p.2)) []
  s.counters.foldl (fun (m : GoMap Str Entry) p => m.set p.1 (.counter p.2)) gauges

/-- sink.go:58-63 and :272-287: the body, at Unix time `now`.  `omitempty` leaves out an empty source and an empty map. -/
def body (o : Opts) (s : State) (now : Int) : JVal :=
  .obj ([(bs "measure_time", .int now), (bs "period", .int (o.flushPeriod.tdiv 1000000000))] ++
    (if o.source ≠ [] then [(bs "source", .str o.source)] else []) ++
    (if entries s ≠ [] then [(bs "gauges", mapJson Entry.toJson (entries s))] else []))

/-- what a flush does: nothing, print an encoding error, or post a body. -/
inductive Sent where
  | nothing
  | failed
  | posted (body : Str)
deriving DecidableEq, Repr

/-- sink.go:265-311 `send`, up to the request. -/
def send (o : Opts) (s : State) (now : Int) : Sent :=
  if s.timers.length = 0 ∧ s.counters.length = 0 then .nothing
  else match (body o s now).marshal with
    | none => .failed
    | some b => .posted b

/-- sink.go:89-111 `New`: the maps. -/
def init : State := ⟨[], []⟩

/-- sink.go:257-263 `purge`. -/
def purge (o : Opts) (s : State) (now : Int) : State × Sent := (init, send o s now)

/-- a step of the worker: it processes an emission, or the ticker fires at Unix time `now`. -/
inductive Op where
  | emit (job : Str) (p : Payload)
  | flush (now : Int)
deriving DecidableEq, Repr

/-- the worker's state and what it has sent. -/
def step (o : Opts) (s : State × List Sent) : Op → State × List Sent
  | .emit job p => (process o s.1 job p, s.2)
  | .flush now => ((purge o s.1 now).1, s.2 ++ [(purge o s.1 now).2])
def run (o : Opts) (ops : List Op) : State × List Sent := ops.foldl (step o) (init, [])

end Librato

example : Librato.sanitizeKey (bs "Früh st:1-x.y_z!") = bs "Fr_h_st:1-x.y_z_" ∧ Librato.sanitizeKey [0xC3, 65] = bs "_A" := by decide +kernel
