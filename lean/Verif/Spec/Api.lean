import Verif.Model.Api
import Verif.Spec.Writer
import Verif.Spec.Metrics
/-!
# Specification of healthd's API
-/
namespace Spec
open Api Healthd

/-- the sort keys of /jobs. -/
inductive SortKey where
  | name | count | success | validationError | panic | error | junk | totalTime | avg | min | max | stddev
deriving DecidableEq, Repr

def SortKey.text : SortKey → Str
  | .name => bs "name"
  | .count => bs "count"
  | .success => bs "count_success"
  | .validationError => bs "count_validation_error"
  | .panic => bs "count_panic"
  | .error => bs "count_error"
  | .junk => bs "count_junk"
  | .totalTime => bs "total_time"
  | .avg => bs "avg"
  | .min => bs "min"
  | .max => bs "max"
  | .stddev => bs "stddev"

/-- `b` is at most `a`, for floats that are not NaN. -/
def floatGe (a b : F64) : Prop :=
  a ≠ .nan ∧ b ≠ .nan ∧ (a = .inf false ∨ b = .inf true ∨ (a.isFinite = true ∧ b.isFinite = true ∧ b.toRat ≤ a.toRat))

/-- `a` may stand before `b`: names increase, numbers decrease. -/
def mayPrecede (key : SortKey) (a b : Row) : Prop :=
  match key with
  | .name => a.name = b.name ∨ Precedes a.name b.name
  | .count => b.count ≤ a.count
  | .success => b.countSuccess ≤ a.countSuccess
  | .validationError => b.countValidationError ≤ a.countValidationError
  | .panic => b.countPanic ≤ a.countPanic
  | .error => b.countError ≤ a.countError
  | .junk => b.countJunk ≤ a.countJunk
  | .totalTime => b.nanosSum ≤ a.nanosSum
  | .avg => floatGe a.nanosAvg b.nanosAvg
  | .min => b.nanosMin ≤ a.nanosMin
  | .max => b.nanosMax ≤ a.nanosMax
  | .stddev => floatGe a.nanosStdDev b.nanosStdDev

/-- a row of /jobs repeats the numbers of the aggregation (average and standard deviation: see C53). -/
structure RowOf (row : Row) (a : JobAgg) : Prop where
  count : row.count = a.timer.count
  success : row.countSuccess = a.countSuccess
  validationError : row.countValidationError = a.countValidationError
  panic : row.countPanic = a.countPanic
  error : row.countError = a.countError
  junk : row.countJunk = a.countJunk
  sum : row.nanosSum = a.timer.nanosSum
  squares : row.nanosSumSquares = a.timer.nanosSumSquares
  min : row.nanosMin = a.timer.nanosMin
  max : row.nanosMax = a.timer.nanosMax

/-! ## What the answers show -/

/-- an object whose members have different names: every reader sees the same. -/
def UniqueNames (j : Json) : Prop := ∃ ms, j = .obj ms ∧ (ms.map (·.1)).Nodup

structure ShowsRow (j : Json) (r : Row) : Prop where
  unique : UniqueNames j
  name : j.field (bs "name") = some (.str r.name)
  count : j.field (bs "count") = some (.num r.count)
  success : j.field (bs "count_success") = some (.num r.countSuccess)
  validationError : j.field (bs "count_validation_error") = some (.num r.countValidationError)
  panic : j.field (bs "count_panic") = some (.num r.countPanic)
  error : j.field (bs "count_error") = some (.num r.countError)
  junk : j.field (bs "count_junk") = some (.num r.countJunk)
  sum : j.field (bs "nanos_sum") = some (.num r.nanosSum)
  squares : ∃ x, j.field (bs "nanos_sum_squares") = some x ∧ IsFloat x r.nanosSumSquares
  min : j.field (bs "nanos_min") = some (.num r.nanosMin)
  max : j.field (bs "nanos_max") = some (.num r.nanosMax)
  avg : ∃ x, j.field (bs "nanos_avg") = some x ∧ IsFloat x r.nanosAvg
  stdDev : ∃ x, j.field (bs "nanos_std_dev") = some x ∧ IsFloat x r.nanosStdDev

/-- the field is this instant (in this location). -/
def ShowsTime (zone : Nat → Int → Int) (j : Json) (k : Str) (t : Time) : Prop :=
  ∃ s, j.field k = some (.str s) ∧ readTime s = some (t.ns, zone t.loc t.ns)

structure ShowsHost (zone : Nat → Int → Int) (j : Json) (h : HostStatus) : Prop where
  unique : UniqueNames j
  hostPort : j.field (bs "host_port") = some (.str h.hostPort)
  lastCheckTime : ShowsTime zone j (bs "last_check_time") h.lastCheckTime
  instanceId : j.field (bs "last_instance_id") = some (.str h.lastInstanceId)
  duration : j.field (bs "last_interval_duration") = some (.num h.lastIntervalDuration)
  err : j.field (bs "last_err") = some (.str h.lastErr)
  nanos : j.field (bs "last_nanos") = some (.num h.lastNanos)
  code : j.field (bs "last_code") = some (.num h.lastCode)
  first : ShowsTime zone j (bs "first_successful_response") h.firstSuccessfulResponse
  last : ShowsTime zone j (bs "last_successful_response") h.lastSuccessfulResponse

/-- the answer of an endpoint: status, type, which healthd, its interval, and a field for which `P` holds. -/
def Answers (r : HttpResp) (identifier : Str) (d : Int) (field : Str) (P : Json → Prop) : Prop :=
  r.code = 200 ∧ r.contentType = bs "application/json; charset=utf-8" ∧
  ∃ j x, readJson r.body = some j ∧ UniqueNames j ∧ j.field (bs "instance_id") = some (.str identifier) ∧ j.field (bs "interval_duration") = some (.num d) ∧ j.field field = some x ∧ P x

/-- a list of things shown. -/
def ShowsList {α : Type} (P : Json → α → Prop) (l : List α) (j : Json) : Prop := ∃ xs, j = .arr xs ∧ List.Forall₂ P xs l

/-- text that healthd can pass on: UTF-8, without a percent sign (see C39_false). -/
def PlainText (s : Str) : Prop := IsUtf8 s ∧ (37 : UInt8) ∉ s

end Spec
