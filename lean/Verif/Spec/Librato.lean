import Verif.Spec.Writer
import Verif.Spec.Metrics
import Verif.Model.Librato
/-!
# Specification of what is posted to Librato
-/
namespace Spec.Lib

/-- the names of a metric joined by dots, after the prefix if there is one. -/
def metricName (pfx : Str) (names : List Str) : Str := [46].intercalate ((if pfx = [] then [] else [pfx]) ++ names)

abbrev Emission := Str × Payload

/-- the counters an emission adds one to. -/
def countsIn (o : Librato.Opts) : Emission → List Str
  | (job, .event e) => [metricName o.pfx [o.sanitize e, bs "count"], metricName o.pfx [o.sanitize job, o.sanitize e, bs "count"]]
  | (job, .eventErr e _) =>
    [metricName o.pfx [o.sanitize e, bs "error", bs "count"], metricName o.pfx [o.sanitize job, o.sanitize e, bs "error", bs "count"]]
  | _ => []

/-- a number of nanoseconds in milliseconds. -/
def inMillis (nanos : Int) : F64 := (F64.ofInt nanos).div (.fin 1000000)

/-- the measurements an emission makes: names and values. -/
def measures (o : Librato.Opts) : Emission → List (Str × F64)
  | (job, .timing e n) =>
    [(metricName o.pfx [o.sanitize e, bs "timing"], inMillis n), (metricName o.pfx [o.sanitize job, o.sanitize e, bs "timing"], inMillis n)]
  | (job, .gauge e v) =>
    [(metricName o.pfx [o.sanitize e, bs "gauge"], v), (metricName o.pfx [o.sanitize job, o.sanitize e, bs "gauge"], v)]
  | (job, .complete st n) => [(metricName o.pfx [o.sanitize job, st.str, bs "timing"], inMillis n)]
  | _ => []

/-- how often a counter was incremented. -/
def counted (o : Librato.Opts) (es : List Emission) (k : Str) : Nat := (es.flatMap (countsIn o)).count k
/-- the values measured under a name, in order. -/
def valuesAt (o : Librato.Opts) (es : List Emission) (k : Str) : List F64 :=
  ((es.flatMap (measures o)).filter (fun p => p.1 = k)).map (·.2)

/-- float64 sum from left to right. -/
def floatSum : List F64 → F64
  | [] => .fin 0
  | x :: xs => xs.foldl F64.add x

/-- `m` is one of the values and none is less (greater). -/
def Least (m : F64) (xs : List F64) : Prop := m ∈ xs ∧ ∀ x ∈ xs, x.lt m = false
def Greatest (m : F64) (xs : List F64) : Prop := m ∈ xs ∧ ∀ x ∈ xs, m.lt x = false

/-- the attributes say that the metric aggregates, and its unit. -/
def HasUnit (j : Json) (unit : Str) : Prop :=
  ∃ a, j.field (bs "attributes") = some a ∧ a.field (bs "aggregate") = some (.bool true) ∧ a.field (bs "display_units_long") = some (.str unit)

structure ShowsCounter (j : Json) (n : Nat) : Prop where
  value : j.field (bs "value") = some (.num n)
  unit : HasUnit j (bs "count")

structure ShowsMeasurement (j : Json) (xs : List F64) : Prop where
  count : j.field (bs "count") = some (.num xs.length)
  sum : ∃ x, j.field (bs "sum") = some x ∧ IsFloat x (floatSum xs)
  squares : ∃ x, j.field (bs "sum_squares") = some x ∧ IsFloat x (floatSum (xs.map (fun v => v.mul v)))
  min : ∃ x m, j.field (bs "min") = some x ∧ IsFloat x m ∧ Least m xs
  max : ∃ x m, j.field (bs "max") = some x ∧ IsFloat x m ∧ Greatest m xs
  unit : HasUnit j (bs "ms")

/-- a posted document shows exactly these emissions. -/
structure IsPost (o : Librato.Opts) (now : Int) (es : List Emission) (j : Json) : Prop where
  time : j.field (bs "measure_time") = some (.num now)
  period : ∃ p : Int, j.field (bs "period") = some (.num p) ∧ p = o.flushPeriod.tdiv 1000000000
  source : j.field (bs "source") = if o.source = [] then none else some (.str o.source)
  metrics : ∃ ms, j.field (bs "gauges") = some (.obj ms) ∧ (ms.map (·.1)).Nodup ∧
    ∀ k, (counted o es k = 0 ∧ valuesAt o es k = [] ∧ member k ms = none) ∨
      (0 < counted o es k ∧ valuesAt o es k = [] ∧ ∃ x, member k ms = some x ∧ ShowsCounter x (counted o es k)) ∨
      (counted o es k = 0 ∧ valuesAt o es k ≠ [] ∧ ∃ x, member k ms = some x ∧ ShowsMeasurement x (valuesAt o es k))

/-- every sum and sum of squares of the measurements is a finite number. -/
def SumsFinite (o : Librato.Opts) (es : List Emission) : Prop :=
  ∀ k, (floatSum (valuesAt o es k)).isFinite = true ∧ (floatSum ((valuesAt o es k).map (fun v => v.mul v))).isFinite = true

/-- a history cut at the flushes: for each the time, and the emissions since the previous one. -/
def flushes : List Emission → List Librato.Op → List (Int × List Emission)
  | _, [] => []
  | es, .emit job p :: t => flushes (es ++ [(job, p)]) t
  | es, .flush now :: t => (now, es) :: flushes [] t

/-- what should be sent at a flush. -/
def FlushOk (o : Librato.Opts) (f : Int × List Emission) (r : Librato.Sent) : Prop :=
  (f.2 = [] ∧ r = .nothing) ∨
  (f.2 ≠ [] ∧ SumsFinite o f.2 ∧ ∃ b j, r = .posted b ∧ readJson b = some j ∧ IsPost o f.1 f.2 j) ∨
  (f.2 ≠ [] ∧ ¬ SumsFinite o f.2 ∧ r = .failed)

/-- the characters valid in Librato's names. -/
def ValidChar (b : UInt8) : Prop :=
  (65 ≤ b.toNat ∧ b.toNat ≤ 90) ∨ (97 ≤ b.toNat ∧ b.toNat ≤ 122) ∨ (48 ≤ b.toNat ∧ b.toNat ≤ 57) ∨
  b.toNat = 46 ∨ b.toNat = 58 ∨ b.toNat = 45 ∨ b.toNat = 95

end Spec.Lib

/-! ## What a series is about (C96) -/
namespace Spec.Lib

/-- a name of valid characters without dots. -/
def Plain (s : Str) : Prop := ∀ c ∈ s, ValidChar c ∧ c ≠ 46
/-- the names that come with an emission are plain. -/
def PlainNames : Emission → Prop
  | (job, .event e) => Plain job ∧ Plain e
  | (job, .eventErr e _) => Plain job ∧ Plain e
  | (job, .timing e _) => Plain job ∧ Plain e
  | (job, .gauge e _) => Plain job ∧ Plain e
  | (job, .complete _ _) => Plain job

/-- the number of events (errors) called `e`, in all jobs or in one. -/
def eventsOf (es : List Emission) (e : Str) : Nat := es.countP (fun x => match x.2 with | .event n => decide (n = e) | _ => false)
def eventsIn (es : List Emission) (job e : Str) : Nat := es.countP (fun x => match x.2 with | .event n => decide (x.1 = job ∧ n = e) | _ => false)
def errorsOf (es : List Emission) (e : Str) : Nat := es.countP (fun x => match x.2 with | .eventErr n _ => decide (n = e) | _ => false)
def errorsIn (es : List Emission) (job e : Str) : Nat := es.countP (fun x => match x.2 with | .eventErr n _ => decide (x.1 = job ∧ n = e) | _ => false)

/-- the timings (gauges) called `e`, in all jobs or in one, and the times of a job's completions with a status: in order. -/
def timingsOf (es : List Emission) (e : Str) : List F64 := es.filterMap (fun x => match x.2 with | .timing n v => if n = e then some (inMillis v) else none | _ => none)
def timingsIn (es : List Emission) (job e : Str) : List F64 :=
  es.filterMap (fun x => match x.2 with | .timing n v => if x.1 = job ∧ n = e then some (inMillis v) else none | _ => none)
def gaugesOf (es : List Emission) (e : Str) : List F64 := es.filterMap (fun x => match x.2 with | .gauge n v => if n = e then some v else none | _ => none)
def gaugesIn (es : List Emission) (job e : Str) : List F64 :=
  es.filterMap (fun x => match x.2 with | .gauge n v => if x.1 = job ∧ n = e then some v else none | _ => none)
def completionsIn (es : List Emission) (job : Str) (status : Str) : List F64 :=
  es.filterMap (fun x => match x.2 with | .complete st v => if x.1 = job ∧ st.str = status then some (inMillis v) else none | _ => none)
/-- timings called like a status, and completions with this status, mixed. -/
def timesIn (es : List Emission) (job e : Str) : List F64 :=
  es.filterMap (fun x => match x.2 with
    | .timing n v => if x.1 = job ∧ n = e then some (inMillis v) else none
    | .complete st v => if x.1 = job ∧ st.str = e then some (inMillis v) else none
    | _ => none)

/-- the posted metrics show a counter with this number (none if it is 0), or a measurement with these values (none if there are none). -/
def CounterIs (ms : List (Str × Json)) (name : Str) (n : Nat) : Prop :=
  match member name ms with
  | none => n = 0
  | some x => 0 < n ∧ ShowsCounter x n
def MeasurementIs (ms : List (Str × Json)) (name : Str) (xs : List F64) : Prop :=
  match member name ms with
  | none => xs = []
  | some x => xs ≠ [] ∧ ShowsMeasurement x xs

end Spec.Lib
