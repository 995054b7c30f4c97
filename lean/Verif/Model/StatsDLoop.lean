import Verif.Model.StatsD
/-!
# The StatsD sink's goroutine and its callers
Models /repo/statsd_sink.go:125-191 (`Stop`, `Drain`, the `Emit…` methods, `loop`) as a labelled transition system.

`q` is `cmdChan` together with the senders blocked on it: Go keeps blocked senders in a FIFO queue and moves the first of them into
the buffer at every receive, so buffer and blocked senders together behave like one unbounded queue of which the first
`cmdChanBuffSize` entries have been accepted (their send has returned).  `drainDoneChan` and `stopDoneChan` are unbuffered: the
send and one receive happen in one step, any waiting receiver may be the one.
Not modelled: the time between two ticks (a tick may be queued at any time), `ticker.Stop()`.
-/

/-- what is sent on `cmdChan`; the number of a `Drain` or `Stop` identifies the call and is not looked at by the worker. -/
inductive SdMsg where
  | emit (c : SdCmd)
  | flush
  | drain (call : Nat)
  | stop (call : Nat)
deriving DecidableEq, Repr

/-- where the worker goroutine is. -/
inductive SdWorker where
  /-- receiving in `LOOP` -/
  | idle
  /-- in `DRAIN_LOOP` -/
  | draining
  /-- sending on `drainDoneChan` -/
  | drainDone
  /-- sending on `stopDoneChan` -/
  | stopping
  /-- `loop` has returned -/
  | halted
deriving DecidableEq, Repr

/-- statsd_sink.go:87 `cmdChanBuffSize`. -/
def cmdChanBuffSize : Nat := 8192

structure SdSys where
  q : List SdMsg
  worker : SdWorker
  sink : StatsD
  /-- calls of `Drain` that have not returned -/
  drainers : List Nat
  /-- calls of `Stop` that have not returned -/
  stoppers : List Nat

/-- one atomic step. -/
inductive SdLab where
  /-- a call of one of the `Emit…` methods reaches the send -/
  | emit (c : SdCmd)
  /-- the ticker goroutine sends a flush -/
  | tick
  /-- `Drain` is called -/
  | drain (call : Nat)
  /-- `Stop` is called -/
  | stop (call : Nat)
  /-- the worker receives a command and processes it, or (in `DRAIN_LOOP`) finds the channel empty and flushes -/
  | work
  /-- `Drain` returns -/
  | drained (call : Nat)
  /-- `Stop` returns -/
  | stopped (call : Nat)
deriving DecidableEq, Repr

namespace SdSys

/-- statsd_sink.go:90-123 `NewStatsDSink`, after `go s.loop()`. -/
def init (s : StatsD) : SdSys := ⟨[], .idle, s, [], []⟩

/-- the worker's steps, statsd_sink.go:162-188; `none`: blocked. -/
def work (y : SdSys) : Option SdSys :=
  match y.worker, y.q with
  | .idle, [] => none
  | .idle, .emit c :: q => some { y with q := q, sink := y.sink.processCmd c }
  | .idle, .flush :: q => some { y with q := q, sink := y.sink.flush }
  | .idle, .drain _ :: q => some { y with q := q, worker := .draining }
  | .idle, .stop _ :: q => some { y with q := q, worker := .stopping }
  | .draining, [] => some { y with sink := y.sink.flush, worker := .drainDone }
  | .draining, .emit c :: q => some { y with q := q, sink := y.sink.processCmd c }
  -- `processCmd` ignores the other kinds (statsd_sink.go:193-206)
  | .draining, .flush :: q => some { y with q := q }
  | .draining, .drain _ :: q => some { y with q := q }
  | .draining, .stop _ :: q => some { y with q := q }
  | .drainDone, _ => none
  | .stopping, _ => none
  | .halted, _ => none

/-- `none`: the step is not possible. -/
def step (y : SdSys) : SdLab → Option SdSys
  | .emit c => some { y with q := y.q ++ [.emit c] }
  | .tick => some { y with q := y.q ++ [.flush] }
  -- statsd_sink.go:130-133
  | .drain i => if i ∈ y.drainers then none else some { y with q := y.q ++ [.drain i], drainers := y.drainers ++ [i] }
  -- statsd_sink.go:125-128
  | .stop i => if i ∈ y.stoppers then none else some { y with q := y.q ++ [.stop i], stoppers := y.stoppers ++ [i] }
  | .work => y.work
  -- the caller is past its own send
  | .drained i =>
    if y.worker = .drainDone ∧ i ∈ y.drainers ∧ .drain i ∉ y.q.drop cmdChanBuffSize then
      some { y with worker := .idle, drainers := y.drainers.erase i }
    else none
  | .stopped i =>
    if y.worker = .stopping ∧ i ∈ y.stoppers ∧ .stop i ∉ y.q.drop cmdChanBuffSize then
      some { y with worker := .halted, stoppers := y.stoppers.erase i }
    else none

/-- a sequence of steps. -/
def run (y : SdSys) : List SdLab → Option SdSys
  | [] => some y
  | l :: ls => (y.step l).bind (fun y' => y'.run ls)

end SdSys
