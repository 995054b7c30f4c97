import Verif.Model.Aggregation
import Verif.Model.RawJson
import Verif.Spec.TimeText
/-!
# How healthd reads a host's metrics
Models `json.Unmarshal(body, &response.HealthAggregationsResponse)` (healthd/poll.go:55): encoding/json's decode.go for the structs of
json_polling_sink_http.go:10-14 and interval_aggregation.go:8-58.  Decoding stores into what is there already, so members that come twice are
decoded twice, into the same place.  `none` = an error is returned (what is then left in the structs is not modelled here).
-/
namespace Unmarshal
open Spec

/-- decoding a value into a place that has some contents. -/
abbrev Dec (V : Type) := V → Raw → Option V

/-- decode.go `literalStore`, int64: the text must be an integer (`1.0` is an error); null changes nothing. -/
def decInt : Dec Int
  | v, .null => some v
  | _, .num text q =>
    if text.all (fun c => c ≠ 46 ∧ c ≠ 69 ∧ c ≠ 101) ∧ q.den = 1 ∧ -2 ^ 63 ≤ q.num ∧ q.num < 2 ^ 63 then some q.num else none
  | _, _ => none
/-- `strconv.ParseFloat`, which fails on overflow and keeps the sign of zero. -/
def decFloat : Dec F64
  | v, .null => some v
  | _, .num text q => match F64.rnd q with
    | .inf _ => none
    | v => some (if v = .fin 0 ∧ text.head? = some 45 then .negZero else v)
  | _, _ => none
def decStr : Dec Str
  | v, .null => some v
  | _, .str _ val => some val
  | _, _ => none
/-- a pointer: null sets it to nil; otherwise what it points to, if need be newly made, is decoded into. -/
def decPtr {V : Type} (dec : Dec V) (zero : V) : Dec (Option V)
  | _, .null => some none
  | o, r => (dec (o.getD zero) r).map some
/-- a map: null sets it to nil; members are added to it, their values decoded into new places. -/
def decMap {V : Type} (dec : Dec V) (zero : V) : Dec (GoMap Str V)
  | _, .null => some []
  | m, .obj ms => ms.foldlM (fun m p => (dec zero p.2).map (fun v => m.set p.1 v)) m
  | _, _ => none

/-- fold.go `foldName`, as far as it can lead to a name in ASCII: lower-case letters become upper-case, U+017F becomes S, U+212A becomes K. -/
def foldName : Str → Str
  | 0xC5 :: 0xBF :: t => 83 :: foldName t
  | 0xE2 :: 0x84 :: 0xAA :: t => 75 :: foldName t
  | c :: t => (if 97 ≤ c ∧ c ≤ 122 then c - 32 else c) :: foldName t
  | [] => []

/-- a member of a struct: decode.go `object`; unknown names are skipped. (No two fields of a struct here have names that differ in case only.) -/
def store {S : Type} (fields : List (Str × Dec S)) (s : S) (member : Str × Raw) : Option S :=
  match fields.find? (fun f => foldName f.1 = foldName member.1) with
  | some f => f.2 s member.2
  | none => some s
def decStruct {S : Type} (fields : List (Str × Dec S)) : Dec S
  | s, .null => some s
  | s, .obj ms => ms.foldlM (store fields) s
  | _, _ => none

/-- a field `name` of type `V`. -/
def fieldOf {S V : Type} (name : Str) (dec : Dec V) (get : S → V) (put : S → V → S) : Str × Dec S :=
  (name, fun s r => (dec (get s) r).map (put s))

/-- the fields of an embedded struct. -/
def embedded {S T : Type} (fields : List (Str × Dec T)) (get : S → T) (put : S → T → S) : List (Str × Dec S) :=
  fields.map (fun f => fieldOf f.1 f.2 get put)

/-- interval_aggregation.go:43-49. -/
def timerFields : List (Str × Dec TimerAgg) :=
  [fieldOf (bs "count") decInt (·.count) (fun s v => { s with count := v }),
   fieldOf (bs "nanos_sum") decInt (·.nanosSum) (fun s v => { s with nanosSum := v }),
   fieldOf (bs "nanos_sum_squares") decFloat (·.nanosSumSquares) (fun s v => { s with nanosSumSquares := v }),
   fieldOf (bs "nanos_min") decInt (·.nanosMin) (fun s v => { s with nanosMin := v }),
   fieldOf (bs "nanos_max") decInt (·.nanosMax) (fun s v => { s with nanosMax := v })]
/-- interval_aggregation.go:51-57: only the count; the samples are not exported. -/
def errorCounterFields : List (Str × Dec ErrorCounter) := [fieldOf (bs "count") decInt (·.count) (fun s v => { s with count := v })]

/-- interval_aggregation.go:25-30, where pointers may be nil. -/
structure Maps where
  timers : GoMap Str (Option TimerAgg)
  gauges : GoMap Str F64
  events : GoMap Str Int
  eventErrs : GoMap Str (Option ErrorCounter)
deriving DecidableEq, Repr
def Maps.zero : Maps := ⟨[], [], [], []⟩
def mapsFields : List (Str × Dec Maps) :=
  [fieldOf (bs "timers") (decMap (decPtr (decStruct timerFields) TimerAgg.zero) none) (·.timers) (fun s v => { s with timers := v }),
   fieldOf (bs "gauges") (decMap decFloat (.fin 0)) (·.gauges) (fun s v => { s with gauges := v }),
   fieldOf (bs "events") (decMap decInt 0) (·.events) (fun s v => { s with events := v }),
   fieldOf (bs "event_errs") (decMap (decPtr (decStruct errorCounterFields) ErrorCounter.zero) none) (·.eventErrs) (fun s v => { s with eventErrs := v })]

/-- interval_aggregation.go:32-41. -/
structure Job where
  maps : Maps
  timer : TimerAgg
  countSuccess : Int
  countValidationError : Int
  countPanic : Int
  countError : Int
  countJunk : Int
deriving DecidableEq, Repr
def Job.zero : Job := ⟨Maps.zero, TimerAgg.zero, 0, 0, 0, 0, 0⟩
def jobFields : List (Str × Dec Job) :=
  embedded mapsFields (·.maps) (fun s v => { s with maps := v }) ++ embedded timerFields (·.timer) (fun s v => { s with timer := v }) ++
  [fieldOf (bs "count_success") decInt (·.countSuccess) (fun s v => { s with countSuccess := v }),
   fieldOf (bs "count_validation_error") decInt (·.countValidationError) (fun s v => { s with countValidationError := v }),
   fieldOf (bs "count_panic") decInt (·.countPanic) (fun s v => { s with countPanic := v }),
   fieldOf (bs "count_error") decInt (·.countError) (fun s v => { s with countError := v }),
   fieldOf (bs "count_junk") decInt (·.countJunk) (fun s v => { s with countJunk := v })]

/-- identity of the `*Location` (see `Time`): 0 is UTC, 1 is Local, 2 to 28 are the unnamed zones of -12 to +14 hours that `time.FixedZone`
keeps (Go ≥ 1.19), the others are made afresh by every call. `isZ`: the zone was written as Z (`+00:00` is not UTC to Go). -/
def locOf (localOffset : Int → Int) (fresh : Nat) (isZ : Bool) (ns off : Int) : Nat :=
  if isZ then 0
  else if localOffset ns = off then 1
  else if off % 3600 = 0 ∧ -43200 ≤ off ∧ off ≤ 50400 then 2 + (off / 3600 + 12).toNat
  else 29 + fresh

/-- `Time.UnmarshalJSON`, which is given the text with its quotes and does not resolve escapes, and the location that
format_rfc3339.go `parseRFC3339` gives. -/
def decTime (localOffset : Int → Int) (fresh : Nat) : Dec Time
  | t, .null => some t
  | _, .str text _ => (readTime text).map (fun p => ⟨p.1, locOf localOffset fresh (decide (text.getLast? = some 90)) p.1 p.2⟩)
  | _, _ => none

/-- interval_aggregation.go:9-23. -/
structure Interval where
  start : Time
  serial : Int
  jobs : GoMap Str (Option Job)
  maps : Maps
deriving DecidableEq, Repr
def Interval.zero : Interval := ⟨⟨0, 0⟩, 0, [], Maps.zero⟩
def intervalFields (localOffset : Int → Int) (fresh : Nat) : List (Str × Dec Interval) :=
  [fieldOf (bs "interval_start") (decTime localOffset fresh) (·.start) (fun s v => { s with start := v }),
   fieldOf (bs "serial_number") decInt (·.serial) (fun s v => { s with serial := v }),
   fieldOf (bs "jobs") (decMap (decPtr (decStruct jobFields) Job.zero) none) (·.jobs) (fun s v => { s with jobs := v })] ++
  embedded mapsFields (·.maps) (fun s v => { s with maps := v })

/-- a slice of pointers: its elements, and what its array holds after them (decode.go `array` decodes into what is there, and `SetLen` hides and
uncovers elements). `fresh` numbers the elements. -/
structure Slice where
  elems : List (Option Interval)
  hidden : List (Option Interval)
deriving DecidableEq, Repr
def decElems (localOffset : Int → Int) : Nat → List (Option Interval) → List Raw → Option Slice
  | _, cells, [] => some ⟨[], cells⟩
  | fresh, cells, r :: rs =>
    (decPtr (decStruct (intervalFields localOffset fresh)) Interval.zero (cells.head?.getD none) r).bind (fun e =>
      (decElems localOffset (fresh + 1) cells.tail rs).map (fun s => ⟨e :: s.elems, s.hidden⟩))
def decSlice (localOffset : Int → Int) (fresh : Nat) : Dec Slice
  | _, .null => some ⟨[], []⟩
  | _, .arr [] => some ⟨[], []⟩
  | s, .arr rs => decElems localOffset fresh (s.elems ++ s.hidden) rs
  | _, _ => none

/-- json_polling_sink_http.go:10-14. -/
structure Answer where
  instanceId : Str
  intervalDuration : Int
  aggs : Slice
deriving DecidableEq, Repr
def Answer.zero : Answer := ⟨[], 0, ⟨[], []⟩⟩
def answerFields (localOffset : Int → Int) (fresh : Nat) : List (Str × Dec Answer) :=
  [fieldOf (bs "instance_id") decStr (·.instanceId) (fun s v => { s with instanceId := v }),
   fieldOf (bs "interval_duration") decInt (·.intervalDuration) (fun s v => { s with intervalDuration := v }),
   fieldOf (bs "aggregations") (decSlice localOffset fresh) (·.aggs) (fun s v => { s with aggs := v })]

/-! ## The result in the form the rest of the model uses -/

/-- a map of pointers: nil pointers become zero values; and whether there was one. -/
def ptrMap {V : Type} (m : GoMap Str (Option V)) (zero : V) : GoMap Str V × Bool :=
  (m.map (fun p => (p.1, p.2.getD zero)), m.any (fun p => p.2.isNone))
def Maps.view (m : Maps) : AggMaps × Bool :=
  (⟨(ptrMap m.timers TimerAgg.zero).1, m.gauges, m.events, (ptrMap m.eventErrs ErrorCounter.zero).1⟩,
    (ptrMap m.timers TimerAgg.zero).2 || (ptrMap m.eventErrs ErrorCounter.zero).2)
def Job.view (j : Job) : JobAgg × Bool :=
  (⟨j.maps.view.1, j.timer, j.countSuccess, j.countValidationError, j.countPanic, j.countError, j.countJunk⟩, j.maps.view.2)

/-- a decoded interval aggregation; `hasNil`: some map contains a nil pointer (which then stands as a zero value in `agg`). -/
structure Report where
  agg : IntAgg
  hasNil : Bool
deriving DecidableEq, Repr
def Interval.view (a : Interval) : Report :=
  let js := ptrMap (a.jobs.map (fun p => (p.1, p.2.map Job.view))) (JobAgg.init, false)
  ⟨⟨a.start, a.serial, js.1.map (fun p => (p.1, p.2.1)), a.maps.view.1⟩, js.2 || js.1.any (fun p => p.2.2) || a.maps.view.2⟩

structure Response where
  instanceId : Str
  intervalDuration : Int
  aggs : List (Option Report)
deriving DecidableEq, Repr
def Answer.view (a : Answer) : Response := ⟨a.instanceId, a.intervalDuration, a.aggs.elems.map (·.map Interval.view)⟩

/-- `json.Unmarshal`. -/
def unmarshal (localOffset : Int → Int) (fresh : Nat) (body : Str) : Option Response :=
  (Raw.parse body).bind (fun r => (decStruct (answerFields localOffset fresh) Answer.zero r).map Answer.view)

end Unmarshal

namespace Unmarshal
example : unmarshal (fun _ => 0) 0 (bs "{\"instance_id\":\"h.1\",\"interval_duration\":60,\"aggregations\":[null,{\"interval_start\":\"0001-01-01T00:00:00Z\",\"events\":{\"e\":3},\"timers\":{\"t\":null}}]}") =
  some ⟨bs "h.1", 60, [none, some ⟨⟨⟨0, 0⟩, 0, [], ⟨[(bs "t", TimerAgg.zero)], [], [(bs "e", 3)], []⟩⟩, true⟩]⟩ := by decide +kernel
example : unmarshal (fun _ => 0) 0 (bs "{\"interval_duration\":1.5}") = none ∧ unmarshal (fun _ => 0) 0 (bs "{\"interval_duration\":1.0}") = none ∧
  unmarshal (fun _ => 0) 0 (bs "{\"interval_duration\":1e2}") = none ∧ unmarshal (fun _ => 0) 0 (bs "{\"interval_duration\":-0}") = some ⟨[], 0, []⟩ := by
  decide +kernel
/-- names are found whatever their case (and U+212A is a K); maps are merged; elements of slices are decoded into again, even after they were hidden. -/
example : unmarshal (fun _ => 0) 0 (bs "{\"INSTANCE_ID\":\"x\",\"Aggregations\":[{\"EVENTs\":{\"a\":1},\"serial_number\":7,\"events\":{\"b\":2}},{\"jobs\":{\"j\":null}}],\"aggregations\":[null],\"aggregations\":[{},{}]}") =
  some ⟨bs "x", 0, [some ⟨⟨⟨0, 0⟩, 0, [], AggMaps.init⟩, false⟩, some ⟨⟨⟨0, 0⟩, 0, [(bs "j", JobAgg.init)], AggMaps.init⟩, true⟩]⟩ ∧
  unmarshal (fun _ => 0) 0 (bs "{\"INSTANCE_ID\":\"x\",\"Aggregations\":[{\"EVENTs\":{\"a\":1},\"serial_number\":7,\"events\":{\"b\":2,\"a\":null},\"gaugeſ\":{\"g\":-0}}]}") =
  some ⟨bs "x", 0, [some ⟨⟨⟨0, 0⟩, 7, [], ⟨[], [(bs "g", .negZero)], [(bs "a", 0), (bs "b", 2)], []⟩⟩, false⟩]⟩ := by decide +kernel
end Unmarshal
