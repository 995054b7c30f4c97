import Verif.Spec.History
/-!
# Specification of the additive counters of an aggregation
A `Counter` names one number shown in the metrics.  `value` reads it from an aggregation (absent = `none`), `contrib`
says what one emission adds to it (`none` = the emission has nothing to do with it), `expected` is what a list of
emissions should give.
-/
namespace Spec

/-- Every additive number of an interval aggregation. -/
inductive Counter where
  | event (ev : Str)
  | error (ev : Str)
  | timerCount (ev : Str)
  | timerSum (ev : Str)
  | jobEvent (job ev : Str)
  | jobError (job ev : Str)
  | jobTimerCount (job ev : Str)
  | jobTimerSum (job ev : Str)
  | jobCount (job : Str)
  | jobSum (job : Str)
  | jobSuccess (job : Str)
  | jobValidationError (job : Str)
  | jobPanic (job : Str)
  | jobErrors (job : Str)
  | jobJunk (job : Str)
deriving DecidableEq, Repr

/-- the number shown, `none` if there is no such entry. -/
def value (a : IntAgg) : Counter → Option Int
  | .event ev => a.maps.events.get? ev
  | .error ev => (a.maps.eventErrs.get? ev).map (·.count)
  | .timerCount ev => (a.maps.timers.get? ev).map (·.count)
  | .timerSum ev => (a.maps.timers.get? ev).map (·.nanosSum)
  | .jobEvent j ev => (a.jobs.get? j).bind (·.maps.events.get? ev)
  | .jobError j ev => (a.jobs.get? j).bind (fun ja => (ja.maps.eventErrs.get? ev).map (·.count))
  | .jobTimerCount j ev => (a.jobs.get? j).bind (fun ja => (ja.maps.timers.get? ev).map (·.count))
  | .jobTimerSum j ev => (a.jobs.get? j).bind (fun ja => (ja.maps.timers.get? ev).map (·.nanosSum))
  | .jobCount j => (a.jobs.get? j).map (·.timer.count)
  | .jobSum j => (a.jobs.get? j).map (·.timer.nanosSum)
  | .jobSuccess j => (a.jobs.get? j).map (·.countSuccess)
  | .jobValidationError j => (a.jobs.get? j).map (·.countValidationError)
  | .jobPanic j => (a.jobs.get? j).map (·.countPanic)
  | .jobErrors j => (a.jobs.get? j).map (·.countError)
  | .jobJunk j => (a.jobs.get? j).map (·.countJunk)

/-- 1 for a completion with status `st`, 0 for everything else. -/
def hasStatus (st : Status) : Emit → Int
  | .complete _ s _ => if s = st then 1 else 0
  | _ => 0

/-- what one emission adds to a counter. -/
def contrib : Counter → Emit → Option Int
  | .event ev, .event _ e => if e = ev then some 1 else none
  | .error ev, .eventErr _ e _ => if e = ev then some 1 else none
  | .timerCount ev, .timing _ e _ => if e = ev then some 1 else none
  | .timerSum ev, .timing _ e n => if e = ev then some n else none
  | .jobEvent j ev, .event j' e => if j' = j ∧ e = ev then some 1 else none
  | .jobError j ev, .eventErr j' e _ => if j' = j ∧ e = ev then some 1 else none
  | .jobTimerCount j ev, .timing j' e _ => if j' = j ∧ e = ev then some 1 else none
  | .jobTimerSum j ev, .timing j' e n => if j' = j ∧ e = ev then some n else none
  | .jobCount j, e => if jobOf e = j then some (match e with | .complete _ _ _ => 1 | _ => 0) else none
  | .jobSum j, e => if jobOf e = j then some (match e with | .complete _ _ n => n | _ => 0) else none
  | .jobSuccess j, e => if jobOf e = j then some (hasStatus Status.success e) else none
  | .jobValidationError j, e => if jobOf e = j then some (hasStatus Status.validationError e) else none
  | .jobPanic j, e => if jobOf e = j then some (hasStatus Status.panic e) else none
  | .jobErrors j, e => if jobOf e = j then some (hasStatus Status.error e) else none
  | .jobJunk j, e => if jobOf e = j then some (hasStatus Status.junk e) else none
  | _, _ => none

/-- Sum, as an int64, of the numbers present; absent if none is present. -/
def sumI (xs : List (Option Int)) : Option Int :=
  if xs.filterMap id = [] then none else some (i64 (xs.filterMap id).sum)

/-- the counter after the emissions `es`. -/
def expected (c : Counter) (es : List Emit) : Option Int := sumI (es.map (contrib c))

end Spec

namespace Spec

/-- A summary with a minimum and a maximum. -/
inductive Extreme where
  | timer (ev : Str)
  | jobTimer (job ev : Str)
  | job (job : Str)
deriving DecidableEq, Repr

/-- the summary itself, if present. -/
def summary (a : IntAgg) : Extreme → Option TimerAgg
  | .timer ev => a.maps.timers.get? ev
  | .jobTimer j ev => (a.jobs.get? j).bind (·.maps.timers.get? ev)
  | .job j => (a.jobs.get? j).map (·.timer)

/-- the durations that should be summarised. -/
def samples (es : List Emit) : Extreme → List Int
  | .timer ev => timings ev es
  | .jobTimer j ev => timings ev (ofJob j es)
  | .job j => (completions (ofJob j es)).map (·.2)

/-- least of the numbers present. -/
def minI (xs : List (Option Int)) : Option Int := (xs.filterMap id).min?
/-- greatest of the numbers present. -/
def maxI (xs : List (Option Int)) : Option Int := (xs.filterMap id).max?

/-- A gauge. -/
inductive Gauge where
  | gauge (ev : Str)
  | jobGauge (job ev : Str)
deriving DecidableEq, Repr

def gaugeOf (a : IntAgg) : Gauge → Option F64
  | .gauge ev => a.maps.gauges.get? ev
  | .jobGauge j ev => (a.jobs.get? j).bind (·.maps.gauges.get? ev)

/-- The same Go values: only the (unobservable) iteration order of the maps may differ. -/
structure SameMaps (a b : AggMaps) : Prop where
  timers : a.timers.Perm b.timers
  gauges : a.gauges.Perm b.gauges
  events : a.events.Perm b.events
  eventErrs : a.eventErrs.Perm b.eventErrs

structure SameJob (a b : JobAgg) : Prop where
  maps : SameMaps a.maps b.maps
  timer : a.timer = b.timer
  countSuccess : a.countSuccess = b.countSuccess
  countValidationError : a.countValidationError = b.countValidationError
  countPanic : a.countPanic = b.countPanic
  countError : a.countError = b.countError
  countJunk : a.countJunk = b.countJunk

/-- Two aggregations holding the same Go values with possibly different map iteration orders. -/
structure SameValues (a b : IntAgg) : Prop where
  start : a.start = b.start
  serial : a.serial = b.serial
  maps : SameMaps a.maps b.maps
  jobs : ∃ js, a.jobs.Perm js ∧ List.Forall₂ (fun p q => p.1 = q.1 ∧ SameJob p.2 q.2) js b.jobs

end Spec

namespace Spec

/-- An error counter. -/
inductive ErrAt where
  | event (ev : Str)
  | jobEvent (job ev : Str)
deriving DecidableEq, Repr

def errAt (a : IntAgg) : ErrAt → Option ErrorCounter
  | .event ev => a.maps.eventErrs.get? ev
  | .jobEvent j ev => (a.jobs.get? j).bind (·.maps.eventErrs.get? ev)

/-- the errors emitted for it. -/
def errsAt (es : List Emit) : ErrAt → List (Option Err)
  | .event ev => errs ev es
  | .jobEvent j ev => errs ev (ofJob j es)

/-- the error samples that an aggregation shows. -/
def shown (a : IntAgg) (x : ErrAt) : List Err :=
  match errAt a x with
  | some c => c.getErrorSamples
  | none => []

end Spec
