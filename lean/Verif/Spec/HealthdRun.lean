import Verif.Model.HealthdRun
/-!
# Atomic answers
An answer of the API is atomic if it is the answer to some state that healthd was in while the request was under way.
-/
namespace Spec
open HdRun

/-- request `i` has begun and has not been answered. -/
def UnderWay (i : Nat) (t : Sys) : Prop := t.loop.req i ≠ .notCalled ∧ t.answer i = none

/-- `r` is the answer for the data of state `t`, all taken at the same time; or nothing after `Stop` was called. -/
def AnswerOf (identifier : Str) (zone : Nat → Int → Int) (q : Request) (t : Sys) (r : HttpResp) : Prop :=
  r = Api.respond q.choices identifier zone ⟨some t.data.intervalAggregations, some (t.data.hostStatus.map (·.2)), t.data.intervalDuration⟩ q.sort q.limit q.endpoint ∨
  (t.loop.stop ≠ .notCalled ∧ r = Api.respond q.choices identifier zone ⟨none, none, t.data.intervalDuration⟩ q.sort q.limit q.endpoint)

/-- two goroutines may access `hd.intervalDuration` at the same time, one of them writing: the aggregation goroutine can do a step that changes it, and
request `i` is about to read it. -/
def DurationRace (sort : List IntAgg → List IntAgg) (identifier : Str) (zone : Nat → Int → Int) (reqs : Nat → Request) (i : Nat) (t : Sys) : Prop :=
  (∃ t', Step sort identifier zone reqs t t' ∧ t'.data.intervalDuration ≠ t.data.intervalDuration) ∧ t.given i ≠ none ∧ t.answer i = none

end Spec
