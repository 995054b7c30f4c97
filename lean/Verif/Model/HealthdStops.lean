import Verif.Model.HealthdLoop
/-!
# Several calls of healthd's `Stop`
Models /repo/healthd/healthd.go:95-100 called more than once, together with everything in Verif/Model/HealthdLoop.lean, which knows the first call only.
`stopAggregator` and `stopStopAggregator` are unbuffered (healthd.go:77-78), so a send and its receipt are one step.
-/
namespace HdStops
open HdLoop

structure Sys where
  /-- the goroutines and the first call -/
  base : HdLoop.Sys
  /-- the other calls -/
  calls : Nat → HdLoop.Stop

/-- healthd.go:108-120. -/
def init (clock : Int) (hosts : Nat) : Sys := ⟨HdLoop.init clock hosts, fun _ => .notCalled⟩

inductive Lab where
  /-- anything in which the other calls take no part -/
  | base (l : HdLoop.Lab)
  /-- healthd.go:96: a further call; the flag is set already -/
  | call (i : Nat)
  /-- healthd.go:97, :151: its send is received by the loop -/
  | accept (i : Nat)
  /-- healthd.go:98, :152: the loop's answer is received by it; the loop ends -/
  | stopped (i : Nat)
deriving DecidableEq, Repr

def step (s : Sys) : Lab → Option Sys
  | .base l => (HdLoop.step s.base l).map (fun b => { s with base := b })
  | .call i => if s.base.stop ≠ .notCalled ∧ s.calls i = .notCalled then some { s with calls := set s.calls i .flagged } else none
  | .accept i => if s.base.main = .idle ∧ s.calls i = .flagged then
      some { base := { s.base with main := .stopping }, calls := set s.calls i .waiting } else none
  | .stopped i => if s.base.main = .stopping ∧ s.calls i = .waiting then
      some { base := { s.base with main := .stopped }, calls := set s.calls i .returned } else none

/-- several steps. -/
def run (s : Sys) (l : List Lab) : Option Sys := l.foldlM step s

end HdStops
