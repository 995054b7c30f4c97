import Verif.Model.Aggregation
/-!
# aggregator: the sliding window of interval aggregations
Models /repo/aggregator.go (the goroutine loop itself is in `Model/PollingSink.lean`).
-/

/-- json_polling_sink.go:15-33 `emitCmd`: one emission as seen by the aggregator. -/
inductive Emit where
  | event (job event : Str)
  | eventErr (job event : Str) (err : Option Err)
  | timing (job event : Str) (nanos : Int)
  | gauge (job event : Str) (value : F64)
  | complete (job : Str) (status : Status) (nanos : Int)
deriving DecidableEq, Repr

/-- aggregator.go:7-20. -/
structure Aggregator where
  intervalDuration : Int
  retain : Int
  maxIntervals : Int
  intervals : List IntAgg
deriving DecidableEq, Repr

/-- aggregator.go:56-64 `newAggregator`. `none` = panic: integer division by zero, or `make` with a negative capacity.
Go's `/` truncates towards zero (`Int.tdiv`). -/
def newAggregator (intervalDuration retain : Int) : Option Aggregator :=
  if intervalDuration = 0 then none
  else
    let maxIntervals := Int.tdiv retain intervalDuration
    if maxIntervals < 0 then none
    else some ⟨intervalDuration, retain, maxIntervals, []⟩

/-- aggregator.go:135-151 `createIntervalAggregation`. `none` = panic: index -1 out of range (line 145) when the window
length is 0.  The loop at lines 142-144 shifts everything down by one. -/
def Aggregator.create (a : Aggregator) (interval : Time) : Option Aggregator :=
  let current := IntAgg.new interval
  let n := a.intervals.length
  if (n : Int) = a.maxIntervals then
    if n = 0 then none
    else some { a with intervals := a.intervals.tail ++ [current] }
  else some { a with intervals := a.intervals ++ [current] }

/-- aggregator.go:124-133 `getIntervalAggregation`: afterwards the current interval is the last of the window. -/
def Aggregator.slide (a : Aggregator) (now : Time) : Option Aggregator :=
  let intervalStart := now.truncate a.intervalDuration
  match a.intervals.getLast? with
  | some last => if last.start = intervalStart then some a else a.create intervalStart
  | none => a.create intervalStart

/-- in-place update of the current (last) interval aggregation. -/
def modifyLast (f : IntAgg → IntAgg) : List IntAgg → List IntAgg
  | [] => []
  | [x] => [f x]
  | x :: y :: t => x :: modifyLast f (y :: t)

/-- `intAgg.SerialNumber++`. -/
def IntAgg.bump (ia : IntAgg) : IntAgg := { ia with serial := i64 (ia.serial + 1) }

/-- aggregator.go:81-122: the effect of one emission on the current interval aggregation. -/
def IntAgg.apply (ia : IntAgg) : Emit → IntAgg
  | .event job event =>            -- aggregator.go:81-87
    (({ ia with maps := ia.maps.incEvent event }).updJob job
      (fun j => { j with maps := j.maps.incEvent event })).bump
  | .eventErr job event e =>       -- aggregator.go:89-97
    (({ ia with maps := ia.maps.addErr event e }).updJob job
      (fun j => { j with maps := j.maps.addErr event e })).bump
  | .timing job event n =>         -- aggregator.go:99-107
    (({ ia with maps := ia.maps.addTiming event n }).updJob job
      (fun j => { j with maps := j.maps.addTiming event n })).bump
  | .gauge job event v =>          -- aggregator.go:109-115
    (({ ia with maps := ia.maps.setGauge event v }).updJob job
      (fun j => { j with maps := j.maps.setGauge event v })).bump
  | .complete job st n =>          -- aggregator.go:117-122
    (ia.updJob job (fun j => j.ingest st n)).bump

/-- aggregator.go:81-122 `EmitEvent`, `EmitEventErr`, `EmitTiming`, `EmitGauge`, `EmitComplete`. -/
def Aggregator.emit (a : Aggregator) (now : Time) (e : Emit) : Option Aggregator :=
  (a.slide now).map fun a => { a with intervals := modifyLast (·.apply e) a.intervals }

/-- aggregator.go:66-79 `memorySafeIntervals`: slides the window, then returns the intervals, the current one cloned. -/
def Aggregator.memorySafeIntervals (a : Aggregator) (now : Time) : Option (Aggregator × List IntAgg) :=
  (a.slide now).map fun a => (a, modifyLast IntAgg.clone a.intervals)

/-- What happens to an aggregator: an emission, the one-second tick (aggregator.go:48-49), or a GetMetrics request
(aggregator.go:50-51). -/
inductive AggOp where
  | emit (e : Emit)
  | tick
  | read
deriving DecidableEq, Repr

/-- one operation at clock reading `now`. -/
def Aggregator.step (a : Aggregator) (now : Time) : AggOp → Option Aggregator
  | .emit e => a.emit now e
  | .tick => a.slide now
  | .read => (a.memorySafeIntervals now).map (·.1)

/-- a whole history. -/
def Aggregator.run (a : Aggregator) : List (Time × AggOp) → Option Aggregator
  | [] => some a
  | (t, op) :: h => (a.step t op).bind (·.run h)

/-- json_polling_sink.go:76-80 `GetMetrics` at clock reading `now` on a polling sink with the given configuration that
has processed the history `h` (`none` = the sink's goroutine has panicked). -/
def getMetrics (d r : Int) (h : List (Time × AggOp)) (now : Time) : Option (List IntAgg) :=
  (newAggregator d r).bind fun a => (a.run h).bind fun a => (a.memorySafeIntervals now).map (·.2)
