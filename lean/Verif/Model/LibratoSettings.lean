import Verif.Model.Librato
import Verif.Model.SinkLoop
/-!
# Setting up a Librato sink
Models /repo/sinks/librato/sink.go:89-111 and :138-165 together with a program that sets the sink's exported fields (`SanitizationFunc`,
`Source`, `FlushPeriod`, :16-19) after `New` has returned and then emits: the goroutine that `New` starts reads `FlushPeriod` for its ticker
when it gets going (:141), the other fields when it works.  One step is one access of the program or one pass of the goroutine's loop.
Simplified: one goroutine emits; ticks come at any time (with any clock reading), as in Verif/Model/SinkLoop.lean; no `Stop`.
-/
namespace LibratoSetup

/-- what the program does with the sink. -/
inductive Act where
  | setSanitize (f : Str → Str)
  | setSource (s : Str)
  | setFlushPeriod (d : Int)
  | emit (job : Str) (p : Payload)

structure State where
  /-- the fields of the sink -/
  opts : Librato.Opts
  /-- the period of the ticker, once the goroutine has made it -/
  ticker : Option Int
  queue : List (Str × Payload)
  /-- the maps, and what was sent -/
  worker : Librato.State × List Librato.Sent
  /-- what the program has still to do -/
  prog : List Act

/-- an assignment to a field. -/
def assign (o : Librato.Opts) : Act → Librato.Opts
  | .setSanitize f => { o with sanitize := f }
  | .setSource s => { o with source := s }
  | .setFlushPeriod d => { o with flushPeriod := d }
  | .emit _ _ => o

/-- sink.go:89-111 `New`: the fields as it leaves them; the goroutine has not run yet. -/
def init (pfx hostname : Str) (prog : List Act) : State :=
  ⟨⟨pfx, Librato.sanitizeKey, hostname, 15 * 1000000000⟩, none, [], (Librato.init, []), prog⟩

inductive Lab where
  /-- the program's next action -/
  | prog
  /-- sink.go:141 -/
  | start
  /-- sink.go:149-160 -/
  | work
  /-- sink.go:161-162 -/
  | tick (now : Int)
deriving DecidableEq, Repr

/-- sink.go:118-136 (sending on `cmdChan`), :138-165.  `time.Tick` gives a nil channel, which never delivers, for a period that is not
positive. -/
def step (s : State) : Lab → Option State
  | .prog =>
    match s.prog with
    | [] => none
    | .emit job p :: rest =>
      if s.queue.length < libratoLoop.cap then some { s with queue := s.queue ++ [(job, p)], prog := rest } else none
    | a :: rest => some { s with opts := assign s.opts a, prog := rest }
  | .start => if s.ticker = none then some { s with ticker := some s.opts.flushPeriod } else none
  | .work =>
    match s.ticker, s.queue with
    | some _, (job, p) :: q => some { s with queue := q, worker := Librato.step s.opts s.worker (.emit job p) }
    | _, _ => none
  | .tick now =>
    match s.ticker with
    | some d => if 0 < d then some { s with worker := Librato.step s.opts s.worker (.flush now) } else none
    | none => none

def runFrom (s : State) : List Lab → Option State
  | [] => some s
  | l :: ls => (step s l).bind (fun s' => runFrom s' ls)

end LibratoSetup
