import Verif.Lemmas.F64Err
import Verif.Spec.History
import Mathlib.Analysis.Real.Sqrt
/-!
# Averages and standard deviations
-/
namespace Spec

/-- sum of squares. -/
def squares (xs : List Int) : Int := (xs.map (fun x => x * x)).sum

/-- count times sum of squares minus square of the sum: `count²` times the variance of the population. -/
def spread (xs : List Int) : Int := xs.length * squares xs - xs.sum * xs.sum

/-- average. -/
noncomputable def mean (xs : List Int) : ℝ := xs.sum / xs.length

/-- sample standard deviation: the root of the sum of the squared deviations from the mean, divided by the number of samples minus one. -/
noncomputable def sampleStdDev (xs : List Int) : ℝ := √((xs.map (fun x : Int => ((x:ℝ) - mean xs) ^ 2)).sum / (xs.length - 1))

/-- the summary `t` was made of the durations `xs`, with at most `k` roundings on the way of every square. -/
structure Measures (k : Nat) (xs : List Int) (t : TimerAgg) : Prop where
  count : t.count = xs.length
  sum : t.nanosSum = xs.sum
  squares : F64.Approx k (Spec.squares xs) t.nanosSumSquares

/-- sizes: durations are int64, their sum is too, and there are fewer than 2^31 of them. -/
structure Sizes (xs : List Int) : Prop where
  each : ∀ x ∈ xs, -2 ^ 63 ≤ x ∧ x < 2 ^ 63
  sum : -2 ^ 63 ≤ xs.sum ∧ xs.sum < 2 ^ 63
  length : xs.length < 2 ^ 31

end Spec
