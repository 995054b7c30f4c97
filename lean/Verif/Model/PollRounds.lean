import Verif.Model.HealthdLoop
/-!
# healthd's rounds of polls
Models /repo/healthd/healthd.go:108-172 with the contents of the channel `responses`: every tick (and the start) begins a round, which starts a
goroutine for each host, waits for them (`sync.WaitGroup`) and then sends a nil.  Everything else is as in Verif/Model/HealthdLoop.lean, which
knows only how many responses there are and lets a nil arrive at any time; Verif/Props/PollRounds.lean proves that this model is one of its
executions.
Simplified: a poll's sending of its response and its `wg.Done()` are one step; data are not modelled.
-/
namespace Rounds
open HdLoop

/-- a round: one call of `(*HealthD).poll` (healthd.go:161-172). -/
structure Round where
  /-- hosts whose goroutine is still to be started (:163-169) -/
  unspawned : List Str
  /-- hosts whose poll is under way -/
  polling : List Str
  /-- the nil was sent (:171) -/
  finished : Bool
deriving DecidableEq, Repr

/-- a message in `responses`: the number of its round, and the host, or nil.  (The code's nil has no number; nothing in the model depends
on it.) -/
abbrev Msg := Nat × Option Str

structure Sys where
  /-- the keys of `hd.hostStatus`, which never change -/
  hosts : List Str
  /-- everything but polls and responses (`polling` and `responses` of this record are not used) -/
  rest : HdLoop.Sys
  rounds : List Round
  /-- the contents of the channel `responses` -/
  chan : List Msg
  /-- what the aggregation goroutine has received from it -/
  taken : List Msg

/-- healthd.go:108-120; the first round begins at once. -/
def init (clock : Int) (hosts : List Str) : Sys :=
  ⟨hosts, HdLoop.init clock 0, [⟨hosts, [], false⟩], [], []⟩

inductive Lab where
  /-- healthd.go:134-136 -/
  | tick
  /-- healthd.go:163-165: round `r` starts the goroutine for a host -/
  | spawn (r : Nat) (hp : Str)
  /-- poll.go:69 and healthd.go:166: the poll of a host sends its response and is done -/
  | deliver (r : Nat) (hp : Str)
  /-- healthd.go:170-171 -/
  | finish (r : Nat)
  /-- healthd.go:137, :142-143: a response is received -/
  | consume
  /-- healthd.go:137-140: a nil is received -/
  | allIn
  /-- anything else -/
  | other (l : HdLoop.Lab)
deriving DecidableEq, Repr

/-- the labels of `HdLoop` that are about polls and responses. -/
def aboutPolls : HdLoop.Lab → Bool
  | .tick _ => true
  | .deliver => true
  | .consume => true
  | .allIn => true
  | _ => false

def setRound (l : List Round) (r : Nat) (x : Round) : List Round := l.set r x

def step (s : Sys) : Lab → Option Sys
  | .tick => if s.rest.main = .idle then some { s with rounds := s.rounds ++ [⟨s.hosts, [], false⟩] } else none
  | .spawn r hp => match s.rounds[r]? with
    | some x => if hp ∈ x.unspawned then
        some { s with rounds := setRound s.rounds r { x with unspawned := x.unspawned.erase hp, polling := x.polling ++ [hp] } } else none
    | none => none
  | .deliver r hp => match s.rounds[r]? with
    | some x => if hp ∈ x.polling ∧ s.chan.length < bufferSize then
        some { s with rounds := setRound s.rounds r { x with polling := x.polling.erase hp }, chan := s.chan ++ [(r, some hp)] } else none
    | none => none
  | .finish r => match s.rounds[r]? with
    | some x => if x.unspawned = [] ∧ x.polling = [] ∧ x.finished = false ∧ s.chan.length < bufferSize then
        some { s with rounds := setRound s.rounds r { x with finished := true }, chan := s.chan ++ [(r, none)] } else none
    | none => none
  | .consume => match s.chan with
    | (r, some hp) :: q => if s.rest.main = .idle then
        some { s with rest := { s.rest with main := .requesting }, chan := q, taken := s.taken ++ [(r, some hp)] } else none
    | _ => none
  | .allIn => match s.chan with
    | (r, none) :: q => if s.rest.main = .idle then some { s with chan := q, taken := s.taken ++ [(r, none)] } else none
    | _ => none
  | .other l => if aboutPolls l then none else (HdLoop.step s.rest l).map (fun z => { s with rest := z })

def run (s : Sys) (l : List Lab) : Option Sys := l.foldlM step s

end Rounds
