import Mathlib.Order.Basic
/-!
# Executions without end, and fairness
Used to say that something happens eventually.  A step of nobody (`lab n = none`) may fill any time, so that an execution in which everything
comes to rest is one of them.
-/
namespace Spec
variable {S L : Type}

/-- an execution: the state at each time and the step made then. -/
structure Exec (step : S → L → Option S) (s0 : S) where
  st : Nat → S
  lab : Nat → Option L
  start : st 0 = s0
  rest : ∀ n, lab n = none → st (n + 1) = st n
  next : ∀ n l, lab n = some l → step (st n) l = some (st (n + 1))

namespace Exec
variable {step : S → L → Option S} {s0 : S}

/-- the steps made before time `n`. -/
def trace (x : Exec step s0) : Nat → List L
  | 0 => []
  | n + 1 => x.trace n ++ (x.lab n).toList

/-- at time `n` one of the steps `A` is made. -/
def Does (x : Exec step s0) (A : L → Prop) (n : Nat) : Prop := ∃ l, A l ∧ x.lab n = some l

/-- at time `n` one of the steps `A` could be made. -/
def Could (x : Exec step s0) (A : L → Prop) (n : Nat) : Prop := ∃ l, A l ∧ (step (x.st n) l).isSome

/-- what could be done at all times from some time on is done (a goroutine that is not blocked proceeds). -/
def WeakFair (x : Exec step s0) (A : L → Prop) : Prop := ∀ n, (∀ m, n ≤ m → x.Could A m) → ∃ m, n ≤ m ∧ x.Does A m

/-- what could be done again and again is done (a `select` does not always pass over the same case that is ready). -/
def StrongFair (x : Exec step s0) (A : L → Prop) : Prop := (∀ n, ∃ m, n ≤ m ∧ x.Could A m) → ∀ n, ∃ m, n ≤ m ∧ x.Does A m

end Exec
end Spec
