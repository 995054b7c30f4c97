import Verif.Model.PollRounds
import Verif.Spec.Order
/-!
# Which goroutine of healthd accesses which memory
Adds to the goroutines of Verif/Model/PollRounds.lean the memory that each step of /repo/healthd/healthd.go, poll.go and api.go reads and writes, and the start of
the server.  Memory is divided into the parts that the code treats alike (`Loc`).
Simplified: a response is taken to write all that it may write (`consumePollResponse`); the debouncer's variables are its own and left out; the stream's memory is
the subject of Verif/Model/Concurrent.lean; of the order that channels make only that of sending before receiving is used, and for channels without a buffer also that of receiving before
the sender goes on.  `stopFlag` is accessed by atomic operations only (healthd.go:96, :104) and left out.
-/
namespace HdMem
open HdLoop

inductive Agent where
  /-- the caller of `StartNewHealthD` and, later, of `Stop` -/
  | start
  /-- `pollAndAggregate` -/
  | loop
  /-- `startHttpServer` and net/http's goroutine that accepts connections -/
  | server
  /-- the goroutine of `(*HealthD).poll` -/
  | round (r : Nat)
  /-- a goroutine that polls a host -/
  | poll (r : Nat) (hp : Str)
  /-- the handler of an API request -/
  | handler (i : Nat)
  /-- a goroutine that calls `Stop` -/
  | stopper
deriving DecidableEq, Repr

inductive Loc where
  /-- the fields set once (healthd.go:67-78: stream, channels, `retain`) and the map `hostStatus` with its pointers -/
  | setup
  /-- `HostPort` of a host's status -/
  | hostPort (hp : Str)
  /-- its other fields -/
  | status (hp : Str)
  /-- the map `hostAggregations` -/
  | hostAggregations
  /-- the map `intervalsNeedingRecalculation` -/
  | needing
  | intervalDuration
  | maxIntervals
  /-- `intervalAggregations` and what its elements point to -/
  | series
  | stopHTTP
  /-- a `pollResponse` and what it points to -/
  | response (r : Nat) (hp : Str)
  /-- the copy made for an API request -/
  | copy (i : Nat)
deriving DecidableEq, Repr

inductive Note where
  /-- on `httpStarted` -/
  | started
  /-- on `responses` -/
  | response (r : Nat) (hp : Str)
  | allIn (r : Nat)
  /-- `wg.Done()` -/
  | done (r : Nat) (hp : Str)
  /-- on `intervalsChanChan` or `hostsChanChan` -/
  | request (i : Nat)
  | answer (i : Nat)
  /-- the receiver has it, the sender goes on -/
  | taken (i : Nat)
  | stop
  | stopTaken
  | stopped
deriving DecidableEq, Repr

abbrev Event := Spec.Event Agent Loc Note

structure Sys where
  loop : Rounds.Sys
  /-- how far `StartNewHealthD` (healthd.go:88-90) has come -/
  boot : Nat
  log : List Event

/-- healthd.go:65-86: the caller sets everything up and starts the aggregation goroutine, and that goroutine its first round (:110-120). -/
def init (clock : Int) (hosts : List Str) : Sys :=
  ⟨Rounds.init clock hosts, 0,
    [{ who := .start, writes := [.setup, .hostAggregations, .needing, .intervalDuration, .maxIntervals, .series, .stopHTTP] ++ hosts.map .hostPort ++ hosts.map .status,
       starts := some .loop },
     { who := .loop, reads := [.setup], starts := some (.round 0) }]⟩

/-- healthd.go:281-329 (`recalculateIntervals`, `setAggregation`). -/
def recalculate (receives : List Note) : Event :=
  { who := .loop, receives, reads := [.setup, .needing, .hostAggregations, .series, .maxIntervals], writes := [.needing, .series] }

/-- what the steps of `Rounds.step` access. -/
def events (s : Rounds.Sys) : Rounds.Lab → List Event
  /- healthd.go:135; :136 with :263-279 (`purge`) -/
  | .tick => [{ who := .loop, reads := [.setup], starts := some (.round s.rounds.length) },
      { who := .loop, reads := [.intervalDuration, .hostAggregations, .maxIntervals, .series], writes := [.hostAggregations, .series] }]
  /- healthd.go:163-165 -/
  | .spawn r hp => [{ who := .round r, reads := [.setup], starts := some (.poll r hp) }]
  /- healthd.go:166-167, poll.go:23-70 -/
  | .deliver r hp => [{ who := .poll r hp, reads := [.setup, .hostPort hp], writes := [.response r hp], sends := [.response r hp, .done r hp] }]
  /- healthd.go:170-171 -/
  | .finish r => [{ who := .round r, receives := s.hosts.map (.done r), sends := [.allIn r] }]
  /- healthd.go:142 with :214-261 (`consumePollResponse`) -/
  | .consume => match s.chan with
    | (r, some hp) :: _ => [{ who := .loop, receives := [.response r hp], reads := [.setup, .response r hp, .status hp, .intervalDuration, .hostAggregations], writes := [.status hp, .intervalDuration, .maxIntervals, .hostAggregations, .needing] }]
    | _ => []
  /- healthd.go:138-140 -/
  | .allIn => match s.chan with
    | (r, none) :: _ => [recalculate [.allIn r]]
    | _ => []
  /- healthd.go:145-146 -/
  | .other .fire => [recalculate []]
  /- api.go:64-98, healthd.go:175, :184: the server starts the handler -/
  | .other (.call i) => [{ who := .server, starts := some (.handler i) }, { who := .handler i, reads := [.setup] }]
  /- healthd.go:178-179, :187-188 -/
  | .other (.enqueue i _) => [{ who := .handler i, reads := [.setup], sends := [.request i] }]
  /- healthd.go:147-150 with :192-212 (`memorySafeIntervals`, `memorySafeHosts`) -/
  | .other (.accept h) => match s.rest.queue h with
    | i :: _ => [{ who := .loop, receives := [.request i], reads := if h then .setup :: s.hosts.map .hostPort ++ s.hosts.map .status else [.series], writes := [.copy i] }]
    | [] => []
  | .other .reply => match s.rest.main with
    | .replying i => [{ who := .loop, sends := [.answer i] }, { who := .handler i, receives := [.answer i], sends := [.taken i] },
        { who := .loop, receives := [.taken i] }]
    | _ => []
  /- healthd.go:95-98, :151-153 -/
  | .other .stop => [{ who := .start, starts := some .stopper }, { who := .stopper, reads := [.setup] }]
  | .other .acceptStop => [{ who := .stopper, sends := [.stop] }, { who := .loop, receives := [.stop], sends := [.stopTaken] }, { who := .stopper, receives := [.stopTaken] }]
  | .other .stopped => [{ who := .loop, reads := [.setup], sends := [.stopped] }, { who := .stopper, receives := [.stopped] }]
  | .other _ => []

inductive Lab where
  /-- healthd.go:89 -/
  | serve
  /-- api.go:88-93 -/
  | serving
  /-- healthd.go:90 -/
  | started
  | go (l : Rounds.Lab)
  /-- api.go:133-240: the handler uses the copy (sorting and merging it) and reads `intervalDuration` -/
  | render (i : Nat)
  /-- healthd.go:99 -/
  | closeHTTP
deriving DecidableEq, Repr

/-- requests come when the server runs; `Stop` is called when `StartNewHealthD` has returned. -/
def allowed (boot : Nat) : Rounds.Lab → Bool
  | .other (.call _) => boot = 3
  | .other .stop => boot = 3
  | _ => true

def step (s : Sys) : Lab → Option Sys
  | .serve => if s.boot = 0 then some { s with boot := 1, log := s.log ++ [{ who := .start, starts := some .server }] } else none
  | .serving => if s.boot = 1 then
      some { s with boot := 2, log := s.log ++ [{ who := .server, reads := [.setup], writes := [.stopHTTP], sends := [.started] }] } else none
  | .started => if s.boot = 2 then some { s with boot := 3, log := s.log ++ [{ who := .start, receives := [.started] }] } else none
  | .go l => if allowed s.boot l then (Rounds.step s.loop l).map (fun z => { s with loop := z, log := s.log ++ events s.loop l }) else none
  | .render i => match s.loop.rest.req i with
    | .answered => some { s with log := s.log ++ [{ who := .handler i, reads := [.setup, .copy i, .intervalDuration], writes := [.copy i] }] }
    | .refused => some { s with log := s.log ++ [{ who := .handler i, reads := [.setup, .intervalDuration] }] }
    | _ => none
  | .closeHTTP => if s.loop.rest.stop = .returned then some { s with log := s.log ++ [{ who := .stopper, reads := [.stopHTTP] }] } else none

def run (s : Sys) (l : List Lab) : Option Sys := l.foldlM step s

end HdMem
