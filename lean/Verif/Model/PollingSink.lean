import Verif.Model.Aggregator
/-!
# The polling sink's goroutine and its callers
Models /repo/json_polling_sink.go:35-80 (`NewJsonPollingSink`, `ShutdownServer`, the `Emit…` methods, `GetMetrics`) and
/repo/aggregator.go:22-54 (`startAggregator`) as a labelled transition system.

`q` is `cmdChan` together with the senders blocked on it (Go keeps those in a FIFO queue and moves the first into the buffer at every
receive); the first 4096 entries have been accepted, that is, their `Emit…` call has returned.  The other channels are unbuffered: a
send and the receive happen in one step.  `select` may choose any case that is ready.  The clock is read by the worker and may show
anything.  A panic of the worker ends the whole program: no step is possible then (`none`).
-/

/-- where the worker goroutine is. -/
inductive PsWorker where
  /-- in the `select` -/
  | running
  /-- sending the snapshot to `GetMetrics` call `call` -/
  | replying (call : Nat) (snap : List IntAgg)
  /-- sending on `doneDoneChan` -/
  | acking
  /-- `startAggregator` has returned -/
  | halted
deriving DecidableEq, Repr

/-- json_polling_sink.go:36. -/
def psBuffSize : Nat := 4096

structure PsSys where
  q : List Emit
  worker : PsWorker
  agg : Aggregator
  /-- calls of `GetMetrics` blocked on sending their request -/
  readers : List Nat
  /-- calls of `ShutdownServer` blocked on sending on `doneChan` -/
  stoppers : List Nat
  /-- the call of `ShutdownServer` waiting on `doneDoneChan` -/
  stopping : List Nat
deriving DecidableEq, Repr

inductive PsLab where
  /-- one of the `Emit…` methods is called (and reaches its send) -/
  | emit (e : Emit)
  /-- `GetMetrics` is called -/
  | read (call : Nat)
  /-- `ShutdownServer` is called -/
  | shutdown (call : Nat)
  /-- the worker receives an emission and applies it, its clock showing `now` -/
  | recv (now : Time)
  /-- the worker receives a tick -/
  | tick (now : Time)
  /-- the worker receives the request of a `GetMetrics` call and takes the snapshot -/
  | request (call : Nat) (now : Time)
  /-- `GetMetrics` returns -/
  | got (call : Nat) (snap : List IntAgg)
  /-- the worker receives from `doneChan` -/
  | done (call : Nat)
  /-- `ShutdownServer` returns -/
  | stopped (call : Nat)
deriving DecidableEq, Repr

namespace PsSys

/-- json_polling_sink.go:35-49. -/
def init (a : Aggregator) : PsSys := ⟨[], .running, a, [], [], []⟩

def step (y : PsSys) : PsLab → Option PsSys
  | .emit e => some { y with q := y.q ++ [e] }
  | .read i => some { y with readers := y.readers ++ [i] }
  | .shutdown i => some { y with stoppers := y.stoppers ++ [i] }
  | .recv now =>
    match y.worker, y.q with
    | .running, e :: q => (y.agg.emit now e).map (fun a => { y with q := q, agg := a })
    | _, _ => none
  | .tick now =>
    match y.worker with
    | .running => (y.agg.slide now).map (fun a => { y with agg := a })
    | _ => none
  | .request i now =>
    match y.worker with
    | .running =>
      if i ∈ y.readers then
        (y.agg.memorySafeIntervals now).map (fun p =>
          { y with agg := p.1, worker := .replying i p.2, readers := y.readers.erase i })
      else none
    | _ => none
  | .got i snap => if y.worker = .replying i snap then some { y with worker := .running } else none
  | .done i =>
    if y.worker = .running ∧ i ∈ y.stoppers then
      some { y with worker := .acking, stoppers := y.stoppers.erase i, stopping := [i] }
    else none
  | .stopped i =>
    if y.worker = .acking ∧ i ∈ y.stopping then some { y with worker := .halted, stopping := [] } else none

def run (y : PsSys) : List PsLab → Option PsSys
  | [] => some y
  | l :: ls => (y.step l).bind (fun y' => y'.run ls)

/-- emissions whose call has not returned. -/
def blocked (y : PsSys) : List Emit := y.q.drop psBuffSize

end PsSys
