import Verif.Model.Librato
import Verif.Model.Bugsnag
/-!
# The goroutines of the Librato and the Bugsnag sink
Models /repo/sinks/librato/sink.go:89-165 and /repo/sinks/bugsnag/sink.go:23-89: callers put commands in a buffered channel, one
goroutine takes them out; `Stop` (`ShutdownServer`) ends the goroutine.  A step that would block is not enabled.
`select` chooses freely among the cases that are ready, so every enabled step may come next.
Simplified: a ticker's tick may come at any time (with any reading of the clock); processing a command is one step.
-/

/-- what the two loops differ in. -/
structure LoopKind where
  /-- capacity of `cmdChan` -/
  cap : Nat
  /-- does `Stop` wait for an answer on `doneDoneChan`? -/
  acks : Bool
  /-- is there a ticker? -/
  ticks : Bool
deriving DecidableEq, Repr

/-- librato/sink.go:90 `buffSize`, :113-116 `Stop`, :141 `time.Tick`. -/
def libratoLoop : LoopKind := ⟨4096, true, true⟩
/-- bugsnag/sink.go:24 `maxChanSize`, :70-72 `ShutdownServer`. -/
def bugsnagLoop : LoopKind := ⟨25, false, false⟩

/-- what the goroutine does. -/
inductive Act (α : Type) where
  | work (a : α)
  | tick (now : Int)
deriving DecidableEq, Repr

/-- where the goroutine is. -/
inductive LoopPhase where
  /-- in the `select` -/
  | running
  /-- librato/sink.go:147: sending on `doneDoneChan`; the caller is waiting for it -/
  | answering (caller : Nat)
  /-- returned -/
  | ended
deriving DecidableEq, Repr

structure SinkLoop (α : Type) where
  /-- contents of `cmdChan` -/
  queue : List α
  phase : LoopPhase
  /-- callers of `Stop` sending on `doneChan` -/
  stopping : List Nat
  /-- callers to whom `Stop` has returned -/
  returned : List Nat
  /-- what the goroutine did so far -/
  acts : List (Act α)
deriving DecidableEq, Repr

namespace SinkLoop
variable {α : Type}

/-- librato/sink.go:89-111 `New`, bugsnag/sink.go:23-39 `NewSink`: the goroutine is started at once. -/
def init : SinkLoop α := ⟨[], .running, [], [], []⟩

inductive Lab (α : Type) where
  /-- `cmdChan <- cmd` completes -/
  | emit (a : α)
  /-- `case cmd := <-cmdChan` -/
  | work
  /-- `case <-ticker` -/
  | tick (now : Int)
  /-- somebody calls `Stop` -/
  | stop (caller : Nat)
  /-- `case <-doneChan` with this caller -/
  | take (caller : Nat)
  /-- `doneDoneChan <- 1` with `<-doneDoneChan` -/
  | answer
deriving DecidableEq, Repr

/-- librato/sink.go:113-136, :138-165; bugsnag/sink.go:45-56, :70-89. -/
def step (k : LoopKind) (s : SinkLoop α) : Lab α → Option (SinkLoop α)
  | .emit a => if s.queue.length < k.cap then some { s with queue := s.queue ++ [a] } else none
  | .work =>
    match s.phase, s.queue with
    | .running, a :: q => some { s with queue := q, acts := s.acts ++ [.work a] }
    | _, _ => none
  | .tick now => if s.phase = .running ∧ k.ticks = true then some { s with acts := s.acts ++ [.tick now] } else none
  | .stop c => some { s with stopping := s.stopping ++ [c] }
  | .take c =>
    if s.phase = .running ∧ c ∈ s.stopping then
      if k.acks then some { s with stopping := s.stopping.erase c, phase := .answering c }
      else some { s with stopping := s.stopping.erase c, phase := .ended, returned := s.returned ++ [c] }
    else none
  | .answer =>
    match s.phase with
    | .answering c => some { s with phase := .ended, returned := s.returned ++ [c] }
    | _ => none

def run (k : LoopKind) : SinkLoop α → List (Lab α) → Option (SinkLoop α)
  | s, [] => some s
  | s, l :: ls => (s.step k l).bind (fun s' => run k s' ls)

end SinkLoop

/-! ## Librato -/

/-- librato/sink.go:144-164: what the goroutine's actions are to the sink. -/
def libratoOps (acts : List (Act (Str × Payload))) : List Librato.Op :=
  acts.map (fun
    | .work (job, p) => .emit job p
    | .tick now => .flush now)

/-! ## Bugsnag -/

/-- A program that uses a stream, and the Bugsnag sink number `sink` of that stream. -/
structure BugsnagSys where
  world : World
  loop : SinkLoop BugsnagReport
  /-- the report being sent: bugsnag/sink.go:84 until `Notify` has encoded it -/
  sending : Option BugsnagReport
  /-- a map was written while `Notify` was reading it (a data race; the Go runtime may kill the process) -/
  raced : Bool
  /-- the reports sent, with the key/values that were found in their maps -/
  sent : List (BugsnagReport × Option (GoMap Str Str))
deriving DecidableEq, Repr

namespace BugsnagSys

/-- before anything: a new stream, and a new sink. -/
def init (clock : Nat → Int) : BugsnagSys := ⟨World.newStream clock, SinkLoop.init, none, false, []⟩

inductive Lab where
  /-- the program does something with the stream -/
  | op (o : World.Op)
  /-- the goroutine takes a report -/
  | start
  /-- the goroutine has encoded (and sent) the report -/
  | finish
  /-- somebody calls `ShutdownServer` -/
  | stop (caller : Nat)
  /-- the goroutine ends -/
  | take (caller : Nat)

/-- the reports that the calls made by one operation put into the channel (bugsnag/sink.go:41-68). -/
def newReports (sink : Nat) (w w' : World) : List BugsnagReport :=
  ((w'.calls.drop w.calls.length).filter (fun c => c.sink = sink)).filterMap bugsnagReport

/-- bugsnag/sink.go:41-68, :70-89.  Simplified: an operation of the program that reports more than once (the sink was added twice)
waits for room for all of its reports before it begins.  `Notify` reads the map once, at the end of the interval in which it is sent. -/
def step (clock : Nat → Int) (sink : Nat) (s : BugsnagSys) : Lab → Option BugsnagSys
  | .op o =>
    let w := s.world.step clock o
    ((newReports sink s.world w).foldlM (fun (l : SinkLoop BugsnagReport) r => l.step bugsnagLoop (.emit r)) s.loop).map (fun l =>
      { s with
        world := w
        loop := l
        raced := s.raced || s.sending.any (fun r => decide (w.deref r.kvs ≠ s.world.deref r.kvs)) })
  | .start =>
    if s.sending = none then (s.loop.step bugsnagLoop .work).map (fun l => { s with loop := l, sending := s.loop.queue.head? })
    else none
  | .finish =>
    match s.sending with
    | some r => some { s with sending := none, sent := s.sent ++ [(r, s.world.deref r.kvs)] }
    | none => none
  | .stop c => (s.loop.step bugsnagLoop (.stop c)).map (fun l => { s with loop := l })
  | .take c => if s.sending = none then (s.loop.step bugsnagLoop (.take c)).map (fun l => { s with loop := l }) else none

def run (clock : Nat → Int) (sink : Nat) : BugsnagSys → List Lab → Option BugsnagSys
  | s, [] => some s
  | s, l :: ls => (s.step clock sink l).bind (fun s' => run clock sink s' ls)

end BugsnagSys
