import Verif.Model.Healthd
import Verif.Spec.Counters
import Verif.Lemmas.Clone
/-!
# Specification of healthd's bookkeeping
What healthd should show is described from the history of its loop alone: the reports it received, the purges and the recalculations.
-/
namespace Spec
open Healthd Unmarshal

/-- a successful poll. -/
def Succeeded (r : PollResponse) : Prop := r.code = 200 ∧ r.err = none
instance (r : PollResponse) : Decidable (Succeeded r) := inferInstanceAs (Decidable (_ ∧ _))

/-- the interval duration: that of the first successful poll, 0 before it. -/
def agreed : List Op → Int
  | [] => 0
  | .response r _ _ :: t => if Succeeded r then r.response.intervalDuration else agreed t
  | _ :: t => agreed t

/-- what matters in the history. -/
inductive Ev where
  /-- process `k.instanceId` at `k.hostPort` reports `a` for interval `k.time` -/
  | report (k : Key) (a : IntAgg)
  | purge (now : Key → Time)
  | recalculate

/-- the reports of a response. -/
def reportsIn (r : PollResponse) : List Ev :=
  r.response.aggs.filterMap (·.map (fun rep => .report ⟨rep.agg.start, r.response.instanceId, r.hostPort⟩ rep.agg))

/-- `d`: the interval duration; responses with another one do not count. -/
def events (d : Int) (h : List Op) : List Ev :=
  h.flatMap (fun
    | .response r _ _ => if Succeeded r ∧ r.response.intervalDuration = d then reportsIn r else []
    | .purge now => [.purge now]
    | .recalculate _ _ => [.recalculate])

/-- the interval started more than five intervals ago. -/
def Stale (d : Int) (now : Key → Time) (k : Key) : Prop := (now k).ns - k.time.ns > 5 * d
instance (d : Int) (now : Key → Time) (k : Key) : Decidable (Stale d now k) := inferInstanceAs (Decidable (_ > _))

/-- what an event says about the data of process and interval `k`: nothing (`none`), gone (`some none`) or `some (some a)`. -/
def about (d : Int) (k : Key) : Ev → Option (Option IntAgg)
  | .report k' a => if k' = k then some (some a) else none
  | .purge now => if Stale d now k then some none else none
  | .recalculate => none

/-- the latest report for `k`, unless purged since. -/
def latest (d : Int) (es : List Ev) (k : Key) : Option IntAgg := (es.filterMap (about d k)).getLast?.join

/-- interval `t` got a report that was new (no data held for the process, or another serial number) since the last recalculation. -/
def Pending (d : Int) (es : List Ev) (t : Time) : Prop :=
  ∃ es1 k a es2, es = es1 ++ .report k a :: es2 ∧ k.time = t ∧ (latest d es1 k).map (·.serial) ≠ some a.serial ∧ Ev.recalculate ∉ es2

/-- interval `t` was due in some recalculation. -/
def Calculated (d : Int) (es : List Ev) (t : Time) : Prop := ∃ es1 es2, es = es1 ++ .recalculate :: es2 ∧ Pending d es1 t

/-- no data for interval `t` was ever purged. -/
def NeverStale (d : Int) (es : List Ev) (t : Time) : Prop := ∀ now, Ev.purge now ∈ es → ∀ k, k.time = t → ¬ Stale d now k

/-- the same numbers. -/
structure SameReading (a b : IntAgg) : Prop where
  counters : ∀ c, value a c = value b c
  mins : ∀ x, (summary a x).map (·.nanosMin) = (summary b x).map (·.nanosMin)
  maxs : ∀ x, (summary a x).map (·.nanosMax) = (summary b x).map (·.nanosMax)

/-- processes use a new serial number when they report something else. -/
def Honest (es : List Ev) : Prop :=
  ∀ k a b, Ev.report k a ∈ es → Ev.report k b ∈ es → a.serial = b.serial → SameReading a b

/-- `a` shows, for interval `t`, the totals over all processes of their latest reports. -/
def Totals (d : Int) (es : List Ev) (t : Time) (a : IntAgg) : Prop :=
  ∃ ks : List Key, ks.Nodup ∧ (∀ k, k ∈ ks ↔ k.time = t ∧ (latest d es k).isSome) ∧
    (∀ c, value a c = sumI (ks.map (fun k => (latest d es k).bind (fun b => value b c)))) ∧
    (∀ x, (summary a x).map (·.nanosMin) = minI (ks.map (fun k => (latest d es k).bind (fun b => (summary b x).map (·.nanosMin))))) ∧
    (∀ x, (summary a x).map (·.nanosMax) = maxI (ks.map (fun k => (latest d es k).bind (fun b => (summary b x).map (·.nanosMax)))))

/-- what Go's types guarantee for a decoded aggregation (`decoded_of_polled`). -/
def Decoded (h : List Op) : Prop :=
  ∀ r n1 n2, Op.response r n1 n2 ∈ h → Succeeded r → ∀ rep, some rep ∈ r.response.aggs → rep.agg.Wf ∧ ∀ c, (value rep.agg c).map i64 = value rep.agg c

end Spec
