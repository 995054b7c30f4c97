import Verif.Model.Nested
import Verif.Spec.Stream
/-!
# Specification vocabulary for nested runs
-/
namespace Nested
open Spec

/-- the status that a job must complete with, by how its function ended: none if it ended with `panic(nil)` (Go before 1.21) or
`runtime.Goexit`. -/
def statusFor : World.Outcome → Option Status
  | .ret .nil => some Status.success
  | .ret _ => some Status.error
  | .panic _ => some Status.panic
  | _ => none

/-- only the run itself: nothing is done after it. -/
def alone (j : Nat) (f : Prog) (stackText : Str) (trace : Trace) : Prog := .run j f stackText trace (fun e => .ends (.ret e))

/-- The runs of a program, in the order in which they end: the job and how the function ended.  (`exec` only tells with which stream and
which errors the program goes on.) -/
def runsOf (clock : Nat → Int) (w : World) : Prog → List (Nat × World.Outcome)
  | .ends _ => []
  | .op a rest => runsOf clock (w.step clock a) rest
  | .newJob name rest => runsOf clock (w.newJob clock name) (rest w.jobs.length)
  | .logErr j ev e t kvs rest => runsOf clock (w.emit clock j (.eventErr ev e t) kvs).1 (rest (w.emit clock j (.eventErr ev e t) kvs).2)
  | .run j f st tr rest => runsOf clock w f ++ (j, (exec clock w f).2) ::
      match exec clock w (alone j f st tr) with
      | (w', .ret e) => runsOf clock w' (rest e)
      | _ => []

/-- programs that can be written: jobs exist when they are run, error objects when they are logged. -/
def LegalProg (clock : Nat → Int) (w : World) : Prog → Prop
  | .ends _ => True
  | .op a rest => LegalOp w a ∧ LegalProg clock (w.step clock a) rest
  | .newJob name rest => LegalProg clock (w.newJob clock name) (rest w.jobs.length)
  | .logErr j ev e t kvs rest => LegalOp w (.emit j (.eventErr ev e t) kvs) ∧
      LegalProg clock (w.emit clock j (.eventErr ev e t) kvs).1 (rest (w.emit clock j (.eventErr ev e t) kvs).2)
  | .run j f st tr rest => j < w.jobs.length ∧ LegalProg clock w f ∧
      match exec clock w (alone j f st tr) with
      | (w', .ret e) => LegalProg clock w' (rest e)
      | _ => True

/-- the program leaves completions to `Run`, and the sinks as they are. -/
def LeavesToRun : Prog → Prop
  | .ends _ => True
  | .op a rest => (∀ s, a ≠ .addSink s) ∧ (∀ j st kvs, a ≠ .emit j (.complete st) kvs) ∧ LeavesToRun rest
  | .newJob _ rest => ∀ j, LeavesToRun (rest j)
  | .logErr _ _ _ _ _ rest => ∀ e, LeavesToRun (rest e)
  | .run _ f _ _ rest => LeavesToRun f ∧ ∀ e, LeavesToRun (rest e)

/-- the program does not panic outside of the functions that it gives to `Run`. -/
def Calm : Prog → Prop
  | .ends o => ∀ text, o ≠ .panic text ∧ o ≠ .panicNil
  | .op _ rest => Calm rest
  | .newJob _ rest => ∀ j, Calm (rest j)
  | .logErr _ _ _ _ _ rest => ∀ e, Calm (rest e)
  | .run _ _ _ _ rest => ∀ e, Calm (rest e)

/-- the completions among calls of sinks: sink, job, status. -/
def completions (l : List SinkCall) : List (Nat × Str × Status) :=
  l.filterMap (fun c => match c.payload with | .complete st _ => some (c.sink, c.job, st) | _ => none)

end Nested
