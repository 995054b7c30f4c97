import Verif.Model.RuntimeMetrics
/-!
# Specification of the runtime metrics
-/
namespace Spec
open RuntimeMetrics

/-- the option groups. -/
inductive Group where
  | memory | gc | gcQuantile | goroutines | cgo | fds
deriving DecidableEq

def Group.enabled (o : Options) : Group → Bool
  | .memory => o.memory
  | .gc => o.gc
  | .gcQuantile => o.gcQuantile
  | .goroutines => o.goroutines
  | .cgo => o.cgo
  | .fds => o.fds

/-- the gauges: group, name, in the order of reporting. -/
def gaugeTable : List (Group × Str) :=
  [(.memory, bs "alloc"), (.memory, bs "heap_objects"), (.gc, bs "pause_total_ns"), (.gc, bs "num_gc"), (.gc, bs "next_gc"),
   (.gc, bs "gc_cpu_fraction"), (.gcQuantile, bs "gc_pause_quantile_50"), (.gcQuantile, bs "gc_pause_quantile_max"),
   (.goroutines, bs "num_goroutines"), (.cgo, bs "num_cgo_call"), (.fds, bs "num_fds_used")]

/-- a float64 nearest to a number, exact below 2^53. -/
def ShowsInt (v : F64) (n : Int) : Prop := v = F64.rnd n ∧ (|n| < 2 ^ 53 → v = .fin n)

/-- what the value of a gauge should be. -/
def ValueIs (r : Readings) (name : Str) (v : F64) : Prop :=
  (name = bs "alloc" → ShowsInt v r.alloc) ∧ (name = bs "heap_objects" → ShowsInt v r.heapObjects) ∧
  (name = bs "pause_total_ns" → ShowsInt v r.pauseTotalNs) ∧ (name = bs "num_gc" → ShowsInt v r.numGC) ∧
  (name = bs "next_gc" → ShowsInt v r.nextGC) ∧ (name = bs "gc_cpu_fraction" → v = r.gcCPUFraction) ∧
  -- milliseconds, to within a microsecond
  (name = bs "gc_pause_quantile_50" → 0 ≤ r.quantile50 → r.quantile50 < 2 ^ 52 →
    ∃ q, v = .fin q ∧ |q - (r.quantile50 : ℚ) / 1000000| ≤ 1 / 1000) ∧
  (name = bs "gc_pause_quantile_max" → 0 ≤ r.quantileMax → r.quantileMax < 2 ^ 52 →
    ∃ q, v = .fin q ∧ |q - (r.quantileMax : ℚ) / 1000000| ≤ 1 / 1000) ∧
  (name = bs "num_goroutines" → ShowsInt v r.numGoroutine) ∧ (name = bs "num_cgo_call" → ShowsInt v r.numCgoCall) ∧
  (name = bs "num_fds_used" → ∃ n, r.fds = some n ∧ ShowsInt v n)

end Spec
