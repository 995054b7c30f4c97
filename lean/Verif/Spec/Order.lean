import Mathlib.Order.Basic
/-!
# What happens before what, and data races
The relation of the Go memory model, as far as goroutines, their starts and messages make it: an execution is a list of events, each of one goroutine.
-/
namespace Spec

/-- a goroutine accesses memory without any synchronisation in between; it receives `receives` before this, and sends `sends` and starts `starts` after it. -/
structure Event (G X M : Type) where
  who : G
  receives : List M := []
  reads : List X := []
  writes : List X := []
  sends : List M := []
  starts : Option G := none
deriving Repr

variable {G X M : Type}

/-- event `i` happens before event `j`. -/
inductive Before (E : List (Event G X M)) : Nat → Nat → Prop where
  /-- both are of the same goroutine -/
  | same {i j : Nat} {a b : Event G X M} : i < j → E[i]? = some a → E[j]? = some b → a.who = b.who → Before E i j
  /-- the first starts the goroutine of the second -/
  | start {i j : Nat} {a b : Event G X M} : i < j → E[i]? = some a → E[j]? = some b → a.starts = some b.who → Before E i j
  /-- the second receives what the first has sent -/
  | message {i j : Nat} {a b : Event G X M} {m : M} : i < j → E[i]? = some a → E[j]? = some b → m ∈ a.sends → m ∈ b.receives → Before E i j
  | trans {i j k : Nat} : Before E i j → Before E j k → Before E i k

/-- the events both access `x`, and one of them writes it. -/
def Conflict (x : X) (a b : Event G X M) : Prop := x ∈ a.writes ∧ (x ∈ b.reads ∨ x ∈ b.writes) ∨ x ∈ b.writes ∧ x ∈ a.reads

/-- a data race: accesses in conflict, of which neither happens before the other. -/
def DataRace (E : List (Event G X M)) (x : X) (i j : Nat) : Prop :=
  ∃ a b, i < j ∧ E[i]? = some a ∧ E[j]? = some b ∧ Conflict x a b ∧ ¬ Before E i j

end Spec
