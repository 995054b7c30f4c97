import Verif.Model.Aggregator
/-!
# Specification of what a history of emissions should be summarised to
Nothing here mentions the aggregator's data structures: only lists of emissions and arithmetic on lists.
-/
namespace Spec

/-- the job an emission belongs to. -/
def jobOf : Emit → Str
  | .event j _ | .eventErr j _ _ | .timing j _ _ | .gauge j _ _ | .complete j _ _ => j

/-- the emissions of one job, in order. -/
def ofJob (job : Str) (es : List Emit) : List Emit := es.filter (fun e => jobOf e = job)

/-- how often an event was emitted. -/
def eventCount (ev : Str) (es : List Emit) : Nat :=
  es.countP fun | .event _ e => e = ev | _ => false

/-- the errors emitted for an event, oldest first (a nil error is `none`). -/
def errs (ev : Str) (es : List Emit) : List (Option Err) :=
  es.filterMap fun | .eventErr _ e x => if e = ev then some x else none | _ => none

/-- the durations emitted for a timer, oldest first. -/
def timings (ev : Str) (es : List Emit) : List Int :=
  es.filterMap fun | .timing _ e n => if e = ev then some n else none | _ => none

/-- the values emitted for a gauge, oldest first. -/
def gaugeValues (ev : Str) (es : List Emit) : List F64 :=
  es.filterMap fun | .gauge _ e v => if e = ev then some v else none | _ => none

/-- the completions (of whatever job), oldest first. -/
def completions (es : List Emit) : List (Status × Int) :=
  es.filterMap fun | .complete _ s n => some (s, n) | _ => none

/-- number of completions with a status. -/
def statusCount (st : Status) (es : List Emit) : Nat :=
  (completions es).countP fun c => c.1 = st

/-- A counter entry: absent when nothing was counted, otherwise the count as an int64. -/
def counter (n : Nat) : Option Int := if n = 0 then none else some (i64 n)

/-- Floating point accumulation of squares, left to right, starting from 0. -/
def sumSquares (xs : List Int) : F64 :=
  xs.foldl (fun acc x => F64.add acc (F64.mul (F64.ofInt x) (F64.ofInt x))) (.fin 0)

/-- `m` is the least element of `xs`. -/
def Least (m : Int) (xs : List Int) : Prop := m ∈ xs ∧ ∀ x ∈ xs, m ≤ x
/-- `m` is the greatest element of `xs`. -/
def Greatest (m : Int) (xs : List Int) : Prop := m ∈ xs ∧ ∀ x ∈ xs, x ≤ m

/-- the timer summary `t` is exact for the durations `xs` (a summary of nothing is all zero). Minimum and maximum are
claimed for fewer than 2^63 samples. -/
structure Summarises (t : TimerAgg) (xs : List Int) : Prop where
  count : t.count = i64 xs.length
  sum : t.nanosSum = i64 xs.sum
  sumSquares : t.nanosSumSquares = Spec.sumSquares xs
  min : xs ≠ [] → xs.length < 2^63 → Least t.nanosMin xs
  max : xs ≠ [] → xs.length < 2^63 → Greatest t.nanosMax xs
  empty : xs = [] → t.nanosMin = 0 ∧ t.nanosMax = 0

/-- The start of the aggregation interval of length `d` that contains the clock reading `t`: the greatest multiple of
`d` (counted from the zero time) not after `t`, in `t`'s location. -/
def intervalStart (d : Int) (t : Time) : Time := ⟨d * (t.ns / d), t.loc⟩

/-- the emissions contained in an operation. -/
def emitsOf : AggOp → List Emit
  | .emit e => [e]
  | _ => []

/-- Extend a list of segments by one operation: operations that fall into the same aggregation interval as the previous
operation belong to the same segment, otherwise a new segment starts. -/
def addToSegments (d : Int) (segs : List (Time × List Emit)) (op : Time × AggOp) : List (Time × List Emit) :=
  match segs.getLast? with
  | some (s, es) =>
    if s = intervalStart d op.1 then segs.dropLast ++ [(s, es ++ emitsOf op.2)]
    else segs ++ [(intervalStart d op.1, emitsOf op.2)]
  | none => [(intervalStart d op.1, emitsOf op.2)]

/-- The history cut into segments: maximal runs of operations whose clock readings lie in the same interval of length
`d`; each with the interval's start time and its emissions. -/
def segments (d : Int) (h : List (Time × AggOp)) : List (Time × List Emit) :=
  h.foldl (addToSegments d) []

/-- the last `n` elements. -/
def lastN {α : Type} (n : Nat) (l : List α) : List α := l.drop (l.length - n)

/-- the segments a sink with the given interval and retention should hold. -/
def retained (d retain : Int) (h : List (Time × AggOp)) : List (Time × List Emit) :=
  lastN (retain / d).toNat (segments d h)

/-- all emissions of the history made while the clock was in the interval starting at `s`. -/
def emitsIn (d : Int) (s : Time) (h : List (Time × AggOp)) : List Emit :=
  (h.filter (fun p => intervalStart d p.1 = s)).flatMap (fun p => emitsOf p.2)

/-- clock readings never decrease and all carry the same location. -/
def MonotoneClock (h : List (Time × AggOp)) : Prop :=
  h.Pairwise (fun a b => a.1.ns ≤ b.1.ns ∧ a.1.loc = b.1.loc)

end Spec

namespace Spec

/-- Drop immediate repeats: append each error unless it equals the one kept last. -/
def collapse (xs : List Err) : List Err :=
  xs.foldl (fun acc x => if acc.getLast? = some x then acc else acc ++ [x]) []

/-- the error samples `s` are right for the emitted errors `xs`: the most recent (at most five) errors after dropping
immediate repeats, in order up to a rotation of the ring. -/
structure SamplesOf (s : List Err) (xs : List Err) : Prop where
  bound : s.length ≤ 5
  recent : ∃ k, s.rotateLeft k = lastN 5 (collapse xs)
  inOrder : (collapse xs).length ≤ 5 → s = collapse xs

end Spec

namespace Spec

/-- `P` relates the interval-wide maps of an interval aggregation to all its emissions `es`, and every job's maps to
the emissions of that job; the jobs present are exactly those that emitted something. -/
def Everywhere (P : AggMaps → List Emit → Prop) (ia : IntAgg) (es : List Emit) : Prop :=
  P ia.maps es ∧
  ∀ job, match ia.jobs.get? job with
    | none => ofJob job es = []
    | some ja => ofJob job es ≠ [] ∧ P ja.maps (ofJob job es)

/-- the event counters are exact. -/
def EventsExact (am : AggMaps) (es : List Emit) : Prop :=
  ∀ ev, am.events.get? ev = counter (eventCount ev es)

/-- the timer summaries are exact. -/
def TimersExact (am : AggMaps) (es : List Emit) : Prop :=
  ∀ ev, match am.timers.get? ev with
    | none => timings ev es = []
    | some t => timings ev es ≠ [] ∧ Summarises t (timings ev es)

/-- every gauge shows the last value set. -/
def GaugesExact (am : AggMaps) (es : List Emit) : Prop :=
  ∀ ev, am.gauges.get? ev = (gaugeValues ev es).getLast?

/-- the error counters are exact, and their samples are right whenever no nil error was emitted for the event. -/
def ErrsExact (am : AggMaps) (es : List Emit) : Prop :=
  ∀ ev, match am.eventErrs.get? ev with
    | none => errs ev es = []
    | some c => errs ev es ≠ [] ∧ c.count = i64 (errs ev es).length ∧
        c.getErrorSamples.length ≤ 5 ∧ (∀ e ∈ c.getErrorSamples, some e ∈ errs ev es) ∧
        ∀ xs, errs ev es = xs.map some → SamplesOf c.getErrorSamples xs

/-- the completion counters and the summary of the job's durations are exact, given the job's emissions. -/
structure CompletionsExact (ja : JobAgg) (es : List Emit) : Prop where
  success : ja.countSuccess = i64 (statusCount Status.success es)
  validationError : ja.countValidationError = i64 (statusCount Status.validationError es)
  panic : ja.countPanic = i64 (statusCount Status.panic es)
  error : ja.countError = i64 (statusCount Status.error es)
  junk : ja.countJunk = i64 (statusCount Status.junk es)
  durations : Summarises ja.timer ((completions es).map (·.2))

end Spec
