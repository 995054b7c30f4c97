import Verif.Model.F64
import Verif.Model.Base
/-!
# Runtime metrics
Models /repo/runtime_metrics/runtime_metrics.go and fds_*.go.  The readings of the Go runtime are parameters.
-/
namespace RuntimeMetrics

/-- runtime_metrics.go:17-26 `Options`. -/
structure Options where
  interval : Int
  memory : Bool
  gc : Bool
  gcQuantile : Bool
  goroutines : Bool
  cgo : Bool
  fds : Bool
deriving DecidableEq, Repr

/-- runtime_metrics.go:28-42 `NewRuntimeMetrics`: the options used (nil = `none`). -/
def newOptions : Option Options → Options
  | some o => o
  | none => ⟨5000000000, true, true, true, true, true, true⟩

/-- what the runtime says: `runtime.MemStats` (unsigned), `debug.GCStats.PauseQuantiles` (median and maximum, nanoseconds),
`NumGoroutine`, `NumCgoCall` and the number of entries of /proc/self/fd (`none` = error; constant 0 on Darwin). -/
structure Readings where
  alloc : Nat
  heapObjects : Nat
  pauseTotalNs : Nat
  numGC : Nat
  nextGC : Nat
  gcCPUFraction : F64
  quantile50 : Int
  quantileMax : Int
  numGoroutine : Int
  numCgoCall : Int
  fds : Option Nat
deriving DecidableEq, Repr

/-- float64(q/1000)/1000.0, runtime_metrics.go:93-94. -/
def quantile (q : Int) : F64 := (F64.ofInt (q.tdiv 1000)).div (F64.ofInt 1000)

/-- runtime_metrics.go:70-110 `Report`: the calls of `stream.Gauge`. -/
def report (o : Options) (r : Readings) : List (Str × F64) :=
  let out : List (Str × F64) := []
  let out := if o.memory then out ++ [(bs "alloc", F64.ofInt r.alloc)] ++ [(bs "heap_objects", F64.ofInt r.heapObjects)] else out
  let out := if o.gc then
      out ++ [(bs "pause_total_ns", F64.ofInt r.pauseTotalNs)] ++ [(bs "num_gc", F64.ofInt r.numGC)] ++ [(bs "next_gc", F64.ofInt r.nextGC)] ++
        [(bs "gc_cpu_fraction", r.gcCPUFraction)]
    else out
  let out := if o.gcQuantile then
      out ++ [(bs "gc_pause_quantile_50", quantile r.quantile50)] ++ [(bs "gc_pause_quantile_max", quantile r.quantileMax)]
    else out
  let out := if o.goroutines then out ++ [(bs "num_goroutines", F64.ofInt r.numGoroutine)] else out
  let out := if o.cgo then out ++ [(bs "num_cgo_call", F64.ofInt r.numCgoCall)] else out
  if o.fds then
    match r.fds with
    | some n => out ++ [(bs "num_fds_used", F64.ofInt n)]
    | none => out
  else out

/-! ## The poller -/

/-- where a goroutine running `metricsPoller` is (runtime_metrics.go:53-68). -/
inductive Poller where
  /-- in the loop -/
  | polling
  /-- sending on `stopStopChan` -/
  | stopping
  /-- returned -/
  | ended
deriving DecidableEq, Repr

/-- `crashed`: `time.NewTicker` panics on an interval that is not positive, and nobody recovers. -/
structure Sys where
  opts : Options
  pollers : List Poller
  /-- calls of `Stop` waiting to send on `stopChan` -/
  callers : List Nat
  /-- calls of `Stop` waiting for `stopStopChan` -/
  waiting : List Nat
  /-- calls of `Stop` that have returned -/
  returned : List Nat
  emitted : List (Str × F64)
  crashed : Bool

inductive Lab where
  /-- `Start`, and its goroutine makes the ticker -/
  | start
  /-- a poller's ticker fires and it reports the readings -/
  | tick (p : Nat) (r : Readings)
  /-- `Stop` is called -/
  | stop (call : Nat)
  /-- a poller receives from `stopChan` -/
  | stopRecv (p call : Nat)
  /-- a poller's send on `stopStopChan` is received by a waiting `Stop` -/
  | stopped (p call : Nat)

/-- runtime_metrics.go:44-68. -/
def step (s : Sys) : Lab → Option Sys
  | .start =>
    if s.crashed then none
    else if s.opts.interval ≤ 0 then some { s with crashed := true }
    else some { s with pollers := s.pollers ++ [.polling] }
  | .tick p r =>
    if !s.crashed ∧ s.pollers[p]? = some .polling then some { s with emitted := s.emitted ++ report s.opts r } else none
  | .stop i => if !s.crashed ∧ i ∉ s.callers ∧ i ∉ s.waiting ∧ i ∉ s.returned then some { s with callers := s.callers ++ [i] } else none
  | .stopRecv p i =>
    if !s.crashed ∧ s.pollers[p]? = some .polling ∧ i ∈ s.callers then
      some { s with pollers := s.pollers.set p .stopping, callers := s.callers.erase i, waiting := s.waiting ++ [i] }
    else none
  | .stopped p i =>
    if !s.crashed ∧ s.pollers[p]? = some .stopping ∧ i ∈ s.waiting then
      some { s with pollers := s.pollers.set p .ended, waiting := s.waiting.erase i, returned := s.returned ++ [i] }
    else none

def init (o : Option Options) : Sys := ⟨newOptions o, [], [], [], [], [], false⟩

def run (s : Sys) : List Lab → Option Sys
  | [] => some s
  | l :: ls => (step s l).bind (fun s' => run s' ls)

end RuntimeMetrics
