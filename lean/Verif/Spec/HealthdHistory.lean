import Verif.Spec.Healthd
/-!
# What healthd should show for past intervals
Unlike `latest` and `Totals` (Spec/Healthd.lean), these definitions do not mention the purges: what the processes have reported is what counts, whether healthd
still holds it or not.
-/
namespace Spec
open Healthd Unmarshal

/-- the last thing that process `k` ever reported for its interval. -/
def said : List Ev → Key → Option IntAgg
  | [], _ => none
  | e :: t, k =>
    match said t k, e with
    | some a, _ => some a
    | none, .report k' a => if k' = k then some a else none
    | none, _ => none

/-- `a` shows, for interval `t`, the totals over all processes that ever reported the interval. -/
def AllTotals (es : List Ev) (t : Time) (a : IntAgg) : Prop :=
  ∃ ks : List Key, ks.Nodup ∧ (∀ k, k ∈ ks ↔ k.time = t ∧ ∃ b, Ev.report k b ∈ es) ∧
    (∀ c, value a c = sumI (ks.map (fun k => (said es k).bind (fun b => value b c)))) ∧
    (∀ x, (summary a x).map (·.nanosMin) = minI (ks.map (fun k => (said es k).bind (fun b => (summary b x).map (·.nanosMin))))) ∧
    (∀ x, (summary a x).map (·.nanosMax) = maxI (ks.map (fun k => (said es k).bind (fun b => (summary b x).map (·.nanosMax)))))

/-- when healthd throws data of interval `t` away, the interval has been recalculated, and nobody reports it again. -/
def Settled (d : Int) (es : List Ev) (t : Time) : Prop :=
  ∀ es1 now es2, es = es1 ++ .purge now :: es2 → (∃ k, k.time = t ∧ Stale d now k) →
    ¬ Pending d es1 t ∧ ∀ k a, Ev.report k a ∈ es2 → k.time ≠ t

/-- every purge that throws data of interval `t` away comes after a recalculation of the interval. -/
def RecalculatedInTime (d : Int) (es : List Ev) (t : Time) : Prop :=
  ∀ es1 now es2, es = es1 ++ .purge now :: es2 → (∃ k, k.time = t ∧ Stale d now k) → ¬ Pending d es1 t

/-- the clock does not go back: a response consumed after a purge reads a later time. -/
def ClockForward (h : List Op) : Prop :=
  ∀ h1 now h2, h = h1 ++ .purge now :: h2 → ∀ r n1 n2, Op.response r n1 n2 ∈ h2 → ∀ k, (now k).ns ≤ n1.ns

/-- no process reports an interval that started more than five intervals before the report is consumed. -/
def RecentOnly (d : Int) (h : List Op) : Prop :=
  ∀ r n1 n2, Op.response r n1 n2 ∈ h → Succeeded r → ∀ rep, some rep ∈ r.response.aggs → n1.ns - rep.agg.start.ns ≤ 5 * d

end Spec
