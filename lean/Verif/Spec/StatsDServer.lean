import Verif.Spec.StatsD
/-!
# What a StatsD server makes of the datagrams (C97)
As in the reference server (etsy/statsd, stats.js and docs/metric_types.md): counters are added up, timings are collected, a gauge is set to its new
value; but a gauge whose value has a sign is changed by that value.
-/
namespace Spec.Sd

/-- the metrics that arrive; a datagram that cannot be read is ignored. -/
def received (packets : List Str) : List Metric := (packets.filterMap parsePacket).flatten

/-- the metrics of a type with a key. -/
def having (ms : List Metric) (type key : Str) : List Metric := ms.filter (fun m => decide (m.type = type ∧ m.key = key))

def counter (ms : List Metric) (key : Str) : ℚ := ((having ms (bs "c") key).filterMap (fun m => parseDec m.value)).sum
def times (ms : List Metric) (key : Str) : List ℚ := (having ms (bs "ms") key).filterMap (fun m => parseDec m.value)
/-- the new value of a gauge. -/
def setGauge (old : Option ℚ) (m : Metric) : Option ℚ :=
  match m.value, parseDec m.value with
  | 45 :: _, some x => some (old.getD 0 + x)
  | _, some x => some x
  | _, none => old
def gauge (ms : List Metric) (key : Str) : Option ℚ := (having ms (bs "g") key).foldl setGauge none

/-! ## What was emitted -/

/-- a name of letters, digits and underscores. -/
def Plain (s : Str) : Prop := s ≠ [] ∧ ∀ c ∈ s, (65 ≤ c.toNat ∧ c.toNat ≤ 90) ∨ (97 ≤ c.toNat ∧ c.toNat ≤ 122) ∨ (48 ≤ c.toNat ∧ c.toNat ≤ 57) ∨ c.toNat = 95
/-- plain names, and a known status. -/
def PlainNames : SdCmd → Prop
  | .event j e => Plain j ∧ Plain e
  | .eventErr j e => Plain j ∧ Plain e
  | .timing j e _ => Plain j ∧ Plain e
  | .gauge j e _ => Plain j ∧ Plain e
  | .complete j st _ => Plain j ∧ st.str ≠ []

/-- the number of events (errors) called `e`, in all jobs or in one. -/
def eventsOf (cs : List SdCmd) (e : Str) : Nat := cs.countP (fun | .event _ n => decide (n = e) | _ => false)
def eventsIn (cs : List SdCmd) (job e : Str) : Nat := cs.countP (fun | .event j n => decide (j = job ∧ n = e) | _ => false)
def errorsOf (cs : List SdCmd) (e : Str) : Nat := cs.countP (fun | .eventErr _ n => decide (n = e) | _ => false)
def errorsIn (cs : List SdCmd) (job e : Str) : Nat := cs.countP (fun | .eventErr j n => decide (j = job ∧ n = e) | _ => false)

/-- the nanoseconds of the timings called `e`, in all jobs or in one; those of a job's timings called `e` and completions whose status is called `e`. -/
def timingsOf (cs : List SdCmd) (e : Str) : List Int := cs.filterMap (fun | .timing _ n v => if n = e then some v else none | _ => none)
def timesIn (cs : List SdCmd) (job e : Str) : List Int :=
  cs.filterMap (fun | .timing j n v => if j = job ∧ n = e then some v else none | .complete j st v => if j = job ∧ st.str = e then some v else none | _ => none)
def completionsIn (cs : List SdCmd) (job e : Str) : List Int := cs.filterMap (fun | .complete j st v => if j = job ∧ st.str = e then some v else none | _ => none)
/-- the values of the gauges called `e`, in all jobs or in one. -/
def gaugesOf (cs : List SdCmd) (e : Str) : List F64 := cs.filterMap (fun | .gauge _ n v => if n = e then some v else none | _ => none)
def gaugesIn (cs : List SdCmd) (job e : Str) : List F64 := cs.filterMap (fun | .gauge j n v => if j = job ∧ n = e then some v else none | _ => none)

/-- `x` milliseconds are `n` nanoseconds, as exactly as the sink writes them. -/
def IsMillis (x : ℚ) (n : Int) : Prop :=
  (10000000 ≤ n → x = (n / 1000000 : ℤ)) ∧ (n < 10000000 → |x - n / 1000000| ≤ 1 / 200 + |(n : ℚ)| / 1000000 * (2:ℚ) ^ (-51 : ℤ))
/-- `x` is the value `v`, rounded to two decimals unless it is small. -/
def IsGauge (x : ℚ) (v : F64) : Prop := |x - v.toRat| ≤ 1 / 200 ∨ (F64.rnd x).toRat = v.toRat
/-- what a server shows for a gauge that was set to these values. -/
def GaugeIs (x : Option ℚ) (vs : List F64) : Prop :=
  match vs.getLast? with
  | none => x = none
  | some v => ∃ q, x = some q ∧ IsGauge q v
/-- durations are int64. -/
def DurationOk : SdCmd → Prop
  | .timing _ _ n => i64 n = n
  | .complete _ _ n => i64 n = n
  | _ => True
/-- a finite float64 without a minus sign. -/
def Unsigned (v : F64) : Prop := ∃ q, v = .fin q ∧ 0 ≤ q ∧ F64.rnd q = .fin q

end Spec.Sd
