import Verif.Spec.Watch
/-!
# Specification: numbers that should only grow
-/
namespace Spec
open Watch

/-- `s'` comes after `s` in an execution. -/
inductive Leads (sort : List IntAgg → List IntAgg) (lo : Int → Int) (d : Int) (P : List Proc) (s : Sys) : Sys → Prop where
  | refl : Leads sort lo d P s s
  | step {s' s'' : Sys} {x : Item} : Leads sort lo d P s s' → Step sort lo d P s' x s'' → Leads sort lo d P s s''

/-- numbers that count something, as opposed to sums of durations. -/
def Counts : Counter → Prop
  | .timerSum _ => False
  | .jobTimerSum _ _ => False
  | .jobSum _ => False
  | _ => True

/-- nothing emitted lowers the number, and it stays in range. -/
def OnlyGrows (c : Counter) (es : List Emit) : Prop :=
  (∀ e ∈ es, ∀ n, contrib c e = some n → 0 ≤ n) ∧ (es.filterMap (contrib c)).sum < 2 ^ 63

end Spec
