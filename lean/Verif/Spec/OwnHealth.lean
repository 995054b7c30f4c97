import Verif.Model.OwnHealth
import Verif.Spec.Program
/-!
# Specification: healthd's own numbers
-/
namespace Spec
open Healthd OwnHealth

/-- a report: job, call, key/values. -/
abbrev Report := Str × World.Call × Option (GoMap Str Str)

/-- the sink's call says so, with these key/values. -/
def TellsWith (c : SinkCall) (r : Report) : Prop := Conveys c (r.1, r.2.1) ∧ ∀ k, lookup c.seen k = lookup r.2.2 k

/-- what the activities have reported so far. -/
def reported (ts : List Thread) : List Report := ts.flatMap (fun t => (t.work.calls.take t.done).map (fun x => (t.work.job, x.1, x.2)))

/-- all activities have made all their calls. -/
def AllDone (ts : List Thread) : Prop := ∀ t ∈ ts, t.work.calls.length ≤ t.done

/-- the number shown, added up over the intervals (0 if it is not shown). -/
def displayed (ms : List IntAgg) (c : Counter) : Int := (sumI (ms.map (fun a => value a c))).getD 0

/-- how many activities are such. -/
def number (ts : List Thread) (p : Work → Bool) : Int := i64 (ts.countP (fun t => p t.work))

/-- it is a poll whose result has property `p`; the result is the one that healthd works with (`Healthd.poll`). -/
def pollWith (p : PollResponse → Bool) : Work → Bool
  | .poll lo fresh je _ hp res => p (Healthd.poll lo fresh hp ⟨0, 0⟩ 0 ⟨[], 0, []⟩ je res)
  | _ => false

/-- the poll got no answer. -/
def noAnswer : Work → Bool
  | .poll _ _ _ _ _ (.failed _) => true
  | _ => false

/-- the poll got an answer that broke off. -/
def brokeOff : Work → Bool
  | .poll _ _ _ _ _ (.answer _ _ (some _)) => true
  | _ => false

/-- the poll got an answer that is not the JSON of a health response. -/
def unreadable : Work → Bool
  | .poll lo fresh _ _ _ (.answer _ body none) => Unmarshal.unmarshal lo fresh body = none
  | _ => false

def isRecalculation : Work → Bool
  | .recalculate => true
  | _ => false

/-- it is a request to endpoint `e` answered with a code that has property `p`. -/
def requestWith (e : Api.Endpoint) (p : Int → Bool) : Work → Bool
  | .request e' _ code => e' = e && p code
  | _ => false

end Spec
