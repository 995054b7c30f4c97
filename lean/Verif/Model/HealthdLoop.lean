import Verif.Model.Debouncer
/-!
# healthd's goroutines
Models the channel operations of /repo/healthd/healthd.go:95-190 (`Stop`, `pollAndAggregate`, `poll`, `getAggregationSequence`, `getHosts`) and of
debouncer.go as a labelled transition system.  `select` may choose any case that is ready; the clock advances by any amount at any time.
The data are in `Model/Healthd.lean`; here only who waits for whom.  The work between two channel operations is one step.
Simplifications: the nil at the end of a poll may arrive at any time (`Model/PollRounds.lean` says when it does, and refines this model).
-/
namespace HdLoop
open Healthd

/-- the aggregation goroutine (healthd.go:108-156). -/
inductive Main where
  /-- in the `select` -/
  | idle
  /-- consumed a response, sending on `recalcIntervalsRequest` (line 143) -/
  | requesting
  /-- sending the answer to API request `i` (lines 148, 150) -/
  | replying (i : Nat)
  /-- sending on `stopStopAggregator` (line 152) -/
  | stopping
  /-- the loop is left -/
  | stopped
deriving DecidableEq, Repr

/-- the debouncer goroutine. -/
inductive Deb where
  /-- debouncer.go:12 -/
  | top
  /-- debouncer.go:19, until the clock shows `wake` -/
  | sleeping (wake : Int)
  /-- debouncer.go:22 -/
  | checking
  /-- debouncer.go:23 -/
  | sending
deriving DecidableEq, Repr

/-- a call of `Stop` (healthd.go:95-100). -/
inductive Stop where
  | notCalled
  /-- the flag is set; sending on `stopAggregator` -/
  | flagged
  /-- receiving from `stopStopAggregator` -/
  | waiting
  | returned
deriving DecidableEq, Repr

/-- an API request (healthd.go:174-190). -/
inductive Req where
  | notCalled
  /-- saw no stop flag -/
  | checked
  /-- its channel is in the queue; receiving the answer -/
  | waiting
  /-- returned nil because of the stop flag -/
  | refused
  | answered
deriving DecidableEq, Repr

structure Sys where
  clock : Int
  main : Main
  deb : Deb
  /-- `oldestNeedItDone` -/
  oldest : Time
  /-- polls under way -/
  polling : Nat
  /-- in the channel `responses` -/
  responses : Nat
  /-- in the channel `recalcIntervalsRequest` -/
  requests : Nat
  stop : Stop
  req : Nat → Req
  /-- in `intervalsChanChan` (false) and `hostsChanChan` (true) -/
  queue : Bool → List Nat

inductive Lab where
  | advance (ns : Nat)
  /-- the ticker fires: `hosts` polls start, and a purge -/
  | tick (hosts : Nat)
  /-- a poll sends its response -/
  | deliver
  /-- the main loop receives and consumes a response -/
  | consume
  /-- the main loop receives a nil response and recalculates -/
  | allIn
  /-- the main loop's send on `recalcIntervalsRequest` succeeds -/
  | request
  /-- the debouncer finds a request, or finds none and goes to sleep -/
  | take
  | sleep
  | wake
  /-- the debouncer reads the clock and decides -/
  | check
  /-- the main loop receives from the debouncer and recalculates -/
  | fire
  /-- API request `i` looks at the flag -/
  | call (i : Nat)
  /-- its send on `hostsChanChan` (if `hosts`) or `intervalsChanChan` succeeds -/
  | enqueue (i : Nat) (hosts : Bool)
  /-- the main loop receives it -/
  | accept (hosts : Bool)
  /-- it gets the answer -/
  | reply
  /-- `Stop` is called and sets the flag -/
  | stop
  /-- the main loop receives from `stopAggregator` -/
  | acceptStop
  /-- `Stop` receives from `stopStopAggregator`, the main loop ends -/
  | stopped
deriving DecidableEq, Repr

/-- healthd.go:111, 113. -/
def bufferSize : Nat := 64
/-- healthd.go:69-70. -/
def queueSize : Nat := 16
/-- healthd.go:117. -/
def threshold : Int := 2000000000
def sleepTime : Int := 300000000

/-- healthd.go:108-120, `hosts` monitored hosts; the first polls start at once. -/
def init (clock : Int) (hosts : Nat) : Sys := ⟨clock, .idle, .top, zeroTime, hosts, 0, 0, .notCalled, fun _ => .notCalled, fun _ => []⟩

def set {K V : Type} [DecidableEq K] (f : K → V) (i : K) (r : V) : K → V := fun j => if j = i then r else f j

def step (s : Sys) : Lab → Option Sys
  | .advance ns => some { s with clock := s.clock + ns }
  | .tick hosts => if s.main = .idle then some { s with polling := s.polling + hosts } else none
  | .deliver => if s.polling > 0 ∧ s.responses < bufferSize then some { s with polling := s.polling - 1, responses := s.responses + 1 } else none
  | .consume => if s.main = .idle ∧ s.responses > 0 then some { s with responses := s.responses - 1, main := .requesting } else none
  | .allIn => if s.main = .idle then some s else none
  | .request => if s.main = .requesting ∧ s.requests < bufferSize then some { s with requests := s.requests + 1, main := .idle } else none
  | .take => if s.deb = .top ∧ s.requests > 0 then
      some { s with requests := s.requests - 1, oldest := debouncerTake s.oldest ⟨s.clock, 1⟩, deb := .checking } else none
  | .sleep => if s.deb = .top ∧ s.requests = 0 then some { s with deb := .sleeping (s.clock + sleepTime) } else none
  | .wake => match s.deb with
    | .sleeping w => if s.clock ≥ w then some { s with deb := .checking } else none
    | _ => none
  | .check => if s.deb = .checking then
      some { s with deb := if debouncerDue threshold s.oldest ⟨s.clock, 1⟩ then .sending else .top } else none
  | .fire => if s.deb = .sending ∧ s.main = .idle then some { s with deb := .top, oldest := zeroTime } else none
  | .call i => if s.req i = .notCalled then some { s with req := set s.req i (if s.stop = .notCalled then .checked else .refused) } else none
  | .enqueue i h => if s.req i = .checked ∧ (s.queue h).length < queueSize then
      some { s with req := set s.req i .waiting, queue := set s.queue h (s.queue h ++ [i]) } else none
  | .accept h => match s.main, s.queue h with
    | .idle, i :: q => some { s with main := .replying i, queue := set s.queue h q }
    | _, _ => none
  | .reply => match s.main with
    | .replying i => some { s with main := .idle, req := set s.req i .answered }
    | _ => none
  | .stop => if s.stop = .notCalled then some { s with stop := .flagged } else none
  | .acceptStop => if s.main = .idle ∧ s.stop = .flagged then some { s with main := .stopping, stop := .waiting } else none
  | .stopped => if s.main = .stopping ∧ s.stop = .waiting then some { s with main := .stopped, stop := .returned } else none

/-- several steps. -/
def run (s : Sys) (l : List Lab) : Option Sys := l.foldlM step s

end HdLoop
