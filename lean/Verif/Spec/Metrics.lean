import Verif.Model.Aggregation
import Verif.Spec.Utf8
import Verif.Spec.Writer
import Verif.Lemmas.Shortest
import Verif.Spec.History
/-!
# When two aggregations say the same
-/
namespace Spec

/-- `b` says the same as `a`, but for the error samples. -/
structure MapsAgree (a b : AggMaps) : Prop where
  timers : ∀ k, b.timers.get? k = a.timers.get? k
  gauges : ∀ k, b.gauges.get? k = a.gauges.get? k
  events : ∀ k, b.events.get? k = a.events.get? k
  errs : ∀ k, (b.eventErrs.get? k).map (·.count) = (a.eventErrs.get? k).map (·.count)

structure JobAgrees (a b : JobAgg) : Prop where
  maps : MapsAgree a.maps b.maps
  timer : b.timer = a.timer
  counts : b.countSuccess = a.countSuccess ∧ b.countValidationError = a.countValidationError ∧ b.countPanic = a.countPanic ∧
    b.countError = a.countError ∧ b.countJunk = a.countJunk

structure AggAgrees (a b : IntAgg) : Prop where
  start : b.start.ns = a.start.ns
  serial : b.serial = a.serial
  jobs : ∀ k, (a.jobs.get? k = none ∧ b.jobs.get? k = none) ∨ ∃ x y, a.jobs.get? k = some x ∧ b.jobs.get? k = some y ∧ JobAgrees x y
  maps : MapsAgree a.maps b.maps

/-- Go values: 64-bit integers, finite float64 values, names in UTF-8, maps with distinct keys. -/
def InI64 (n : Int) : Prop := -2 ^ 63 ≤ n ∧ n < 2 ^ 63
def Finite64 (v : F64) : Prop := v.isFinite = true ∧ v.Valid
structure TimerOk (t : TimerAgg) : Prop where
  count : InI64 t.count
  sum : InI64 t.nanosSum
  squares : Finite64 t.nanosSumSquares
  min : InI64 t.nanosMin
  max : InI64 t.nanosMax
def Entries {V : Type} (m : GoMap Str V) (P : V → Prop) : Prop := m.Wf ∧ ∀ k v, m.get? k = some v → IsUtf8 k ∧ P v
structure MapsOk (a : AggMaps) : Prop where
  timers : Entries a.timers TimerOk
  gauges : Entries a.gauges Finite64
  events : Entries a.events InI64
  errs : Entries a.eventErrs (fun e => InI64 e.count)
structure JobOk (j : JobAgg) : Prop where
  maps : MapsOk j.maps
  timer : TimerOk j.timer
  counts : InI64 j.countSuccess ∧ InI64 j.countValidationError ∧ InI64 j.countPanic ∧ InI64 j.countError ∧ InI64 j.countJunk
structure AggOk (a : IntAgg) : Prop where
  serial : InI64 a.serial
  jobs : Entries a.jobs JobOk
  maps : MapsOk a.maps

/-- no NaN and no infinity among gauges and sums of squares. -/
def MapsFinite (a : AggMaps) : Prop :=
  (∀ k t, a.timers.get? k = some t → t.nanosSumSquares.isFinite = true) ∧ ∀ k v, a.gauges.get? k = some v → v.isFinite = true
def AggFinite (a : IntAgg) : Prop :=
  MapsFinite a.maps ∧ ∀ k j, a.jobs.get? k = some j → MapsFinite j.maps ∧ j.timer.nanosSumSquares.isFinite = true

/-! ## The metrics document -/

/-- a JSON object standing for a map. -/
def ShowsMap {V : Type} (P : Json → V → Prop) (j : Json) (m : GoMap Str V) : Prop :=
  ∃ ms, j = .obj ms ∧ (ms.map (·.1)).Nodup ∧
    ∀ k, (m.get? k = none ∧ member k ms = none) ∨ ∃ v x, m.get? k = some v ∧ member k ms = some x ∧ P x v

structure ShowsTimer (j : Json) (t : TimerAgg) : Prop where
  count : j.field (bs "count") = some (.num t.count)
  sum : j.field (bs "nanos_sum") = some (.num t.nanosSum)
  squares : ∃ x, j.field (bs "nanos_sum_squares") = some x ∧ IsFloat x t.nanosSumSquares
  min : j.field (bs "nanos_min") = some (.num t.nanosMin)
  max : j.field (bs "nanos_max") = some (.num t.nanosMax)

structure ShowsMaps (j : Json) (a : AggMaps) : Prop where
  timers : ∃ x, j.field (bs "timers") = some x ∧ ShowsMap ShowsTimer x a.timers
  gauges : ∃ x, j.field (bs "gauges") = some x ∧ ShowsMap IsFloat x a.gauges
  events : ∃ x, j.field (bs "events") = some x ∧ ShowsMap (fun y (n : Int) => y = .num n) x a.events
  errs : ∃ x, j.field (bs "event_errs") = some x ∧ ShowsMap (fun y e => y.field (bs "count") = some (.num e.count)) x a.eventErrs

structure ShowsJob (j : Json) (a : JobAgg) : Prop where
  maps : ShowsMaps j a.maps
  timer : ShowsTimer j a.timer
  success : j.field (bs "count_success") = some (.num a.countSuccess)
  validationError : j.field (bs "count_validation_error") = some (.num a.countValidationError)
  panic : j.field (bs "count_panic") = some (.num a.countPanic)
  error : j.field (bs "count_error") = some (.num a.countError)
  junk : j.field (bs "count_junk") = some (.num a.countJunk)

/-- an interval; `zone` is the UTC offset of a location at an instant. -/
structure ShowsAgg (zone : Nat → Int → Int) (j : Json) (a : IntAgg) : Prop where
  start : ∃ s, j.field (bs "interval_start") = some (.str s) ∧ readTime s = some (a.start.ns, zone a.start.loc a.start.ns)
  serial : j.field (bs "serial_number") = some (.num a.serial)
  jobs : ∃ x, j.field (bs "jobs") = some x ∧ ShowsMap ShowsJob x a.jobs
  maps : ShowsMaps j a.maps

/-- the whole document: which process, its interval, and the intervals in order. -/
structure ShowsMetrics (zone : Nat → Int → Int) (j : Json) (identifier : Str) (intervalDuration : Int) (metrics : List IntAgg) : Prop where
  instanceId : j.field (bs "instance_id") = some (.str identifier)
  duration : j.field (bs "interval_duration") = some (.num intervalDuration)
  aggs : ∃ xs, j.field (bs "aggregations") = some (.arr xs) ∧ List.Forall₂ (ShowsAgg zone) xs metrics

/-! ## Inputs -/

/-- every name in an interval. -/
def mapNames (a : AggMaps) : List Str := a.timers.keys ++ a.gauges.keys ++ a.events.keys ++ a.eventErrs.keys
def aggNames (a : IntAgg) : List Str := a.jobs.keys ++ a.jobs.flatMap (fun p => mapNames p.2.maps) ++ mapNames a.maps

/-- the names in an emission. -/
def emitNames : Emit → List Str
  | .event j e | .eventErr j e _ | .timing j e _ | .gauge j e _ => [j, e]
  | .complete j _ _ => [j]

/-- the numbers are Go values (int64, float64), gauges are neither NaN nor infinite. -/
def EmitFits : Emit → Prop
  | .timing _ _ n => InI64 n
  | .gauge _ _ v => Finite64 v
  | .complete _ _ n => InI64 n
  | _ => True

/-- an instant from the beginning of year 1 to the end of December 30, 9999 (UTC). -/
def FourDigits (ns : Int) : Prop := 0 ≤ ns ∧ ns < 3652058 * 86400 * 1000000000

/-- time zones: less than a day from UTC, in whole minutes. -/
def ZonesOk (zone : Nat → Int → Int) : Prop := ∀ loc ns, -86400 < zone loc ns ∧ zone loc ns < 86400 ∧ zone loc ns % 60 = 0

/-- the `*Location` that every parse of a time with this UTC offset gives (UTC, the local zone, the unnamed whole-hour zones that Go keeps);
`none`: every parse makes a new one. -/
def zoneId (lo : Int → Int) (ns off : Int) : Option Nat :=
  if off = 0 then some 0
  else if off = lo ns then some 1
  else if 3600 ∣ off ∧ -43200 ≤ off ∧ off ≤ 50400 then some (14 + off / 3600).toNat
  else none

/-- `t`, written with UTC offset `off`, got the `*Location` that every parse gives. -/
def InZone (lo : Int → Int) (off : Int) (t : Time) : Prop := ∀ loc, zoneId lo t.ns off = some loc → t.loc = loc

end Spec
