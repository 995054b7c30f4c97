import Verif.Spec.Stream
import Verif.Model.SinkLoop
/-!
# Specification of the sinks' goroutines
-/
namespace Spec.Loop
variable {α : Type}

/-- the commands whose emission completed, in order. -/
def accepted : List (SinkLoop.Lab α) → List α
  | [] => []
  | .emit a :: t => a :: accepted t
  | _ :: t => accepted t

/-- the commands that the goroutine processed, in order. -/
def worked : List (Act α) → List α
  | [] => []
  | .work a :: t => a :: worked t
  | .tick _ :: t => worked t

/-- those who called `Stop`. -/
def callers : List (SinkLoop.Lab α) → List Nat
  | [] => []
  | .stop c :: t => c :: callers t
  | _ :: t => callers t

/-- the operations of the program in an execution with a Bugsnag sink. -/
def program : List BugsnagSys.Lab → List World.Op
  | [] => []
  | .op o :: t => o :: program t
  | _ :: t => program t

/-- the error reports that a sink has to make of the calls it received: each with the key/values the call had. -/
def due (sink : Nat) (calls : List SinkCall) : List (BugsnagReport × Option (GoMap Str Str)) :=
  calls.filterMap (fun c => if c.sink = sink then (bugsnagReport c).map (fun r => (r, c.seen)) else none)

/-- no operation of the program changes the contents of a map that belongs to a report not sent yet. -/
def Undisturbed (clock : Nat → Int) (sink : Nat) : BugsnagSys → List BugsnagSys.Lab → Prop
  | _, [] => True
  | s, l :: ls =>
    (∀ o, l = .op o → ∀ r ∈ s.sending.toList ++ s.loop.queue, (s.world.step clock o).deref r.kvs = s.world.deref r.kvs) ∧
    ∀ s', s.step clock sink l = some s' → Undisturbed clock sink s' ls

/-- writes key/values. -/
def Writes : World.Op → Prop
  | .streamKv _ _ => True
  | .jobKv _ _ _ => True
  | .mapSet _ _ _ => True
  | _ => False

/-- key/values are only written while no report is waiting or being sent. -/
def Quiet (clock : Nat → Int) (sink : Nat) : BugsnagSys → List BugsnagSys.Lab → Prop
  | _, [] => True
  | s, l :: ls =>
    (∀ o, l = .op o → Writes o → s.sending = none ∧ s.loop.queue = []) ∧
    ∀ s', s.step clock sink l = some s' → Quiet clock sink s' ls

end Spec.Loop
