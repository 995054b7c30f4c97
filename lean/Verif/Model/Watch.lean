import Verif.Model.PollRounds
import Verif.Model.Healthd
import Verif.Model.Metrics
/-!
# healthd watching processes
Puts the rounds of polls (`Model/PollRounds.lean`), healthd's data (`Model/Healthd.lean`) and the processes that are polled (`Model/Aggregator.lean`,
`Model/Metrics.lean`) together: while healthd's goroutines run, the processes emit, and answer the polls from what they emitted so far.
Models /repo/healthd/healthd.go:108-172 with the contents of the messages in `responses`, poll.go:23-70 and json_polling_sink_http.go:20-38.
Simplified: a process makes its answer in one step; a poll that no process of the list answered fails (which poll.go:36-58 turns into a response with an
error or another code); a request that `net/http` repeats is an ordinary read of the metrics.  A panic ends the program (there is no step).
-/
namespace Watch
open Healthd

/-- a process with a JSON polling sink: its address, its identifier, how long the sink retains data, its time zones. -/
structure Proc where
  hostPort : Str
  instanceId : Str
  retain : Int
  zone : Nat → Int → Int

/-- what happens. -/
inductive Item where
  /-- process `i` emits, ticks, or is asked for its metrics by somebody else -/
  | act (i : Nat) (x : Time × AggOp)
  /-- process `i` makes the answer to the poll of round `r` (json_polling_sink_http.go:20-38) -/
  | serve (r i : Nat) (now : Time)
  /-- a step of healthd's goroutines -/
  | go (l : Rounds.Lab)
deriving DecidableEq

/-- what process `i` did. -/
def histOf (i : Nat) (past : List Item) : List (Time × AggOp) :=
  past.filterMap (fun
    | .act j x => if j = i then some x else none
    | .serve _ j now => if j = i then some (now, .read) else none
    | .go _ => none)

/-- where the contents of a response come from: process `i` made it after it had done `hist`. -/
structure Origin where
  i : Nat
  hist : List (Time × AggOp)
  now : Time

/-- a message in `responses`: the number of its round, and the response, or nil.  (Round and origin are not in the code; nothing depends on them.) -/
abbrev Msg := Nat × Option (PollResponse × Option Origin)

structure Sys where
  loop : Rounds.Sys
  /-- the contents of the channel `responses` -/
  chan : List Msg
  /-- what the aggregation goroutine has received from it -/
  taken : List Msg
  data : Healthd.State
  /-- what the aggregation goroutine did so far -/
  done : List Healthd.Op
  /-- everything that happened so far -/
  past : List Item

/-- healthd.go:66-93: a round polls the keys of `hd.hostStatus`. -/
def start (clock : Int) (hostPorts : List Str) : Sys :=
  ⟨Rounds.init clock ((Healthd.init hostPorts).hostStatus.map (·.1)), [], [], Healthd.init hostPorts, [], []⟩

/-- poll.go:23-70: the poll of `hp` in round `r` makes the response `x`, from the answer of a process or of none. -/
def Makes (lo : Int → Int) (d : Int) (P : List Proc) (past : List Item) (r : Nat) (hp : Str) (x : PollResponse) : Option Origin → Prop
  | none => x.hostPort = hp ∧ ¬ (x.code = 200 ∧ x.err = none)
  | some o => ∃ a b p ms fresh ts nanos junk e, past = a ++ .serve r o.i o.now :: b ∧ o.hist = histOf o.i a ∧ P[o.i]? = some p ∧ p.hostPort = hp ∧
      getMetrics d p.retain o.hist o.now = some ms ∧
      x = poll lo fresh hp ts nanos junk e (.answer 200 (serveHTTP (bs "/health") p.instanceId d p.zone ms).body none)

/-- steps of healthd's goroutines that have nothing to do with the data. -/
def quiet : Rounds.Lab → Bool
  | .spawn _ _ => true
  | .other .fire => false
  | .other _ => true
  | _ => false

/-- the loop recalculates: the nil of a round arrived or the debouncer fired (healthd.go:138-140, 145-146). -/
inductive Recalculates (s : Sys) : Rounds.Lab → List Msg → List Msg → Prop where
  | allIn {r : Nat} {q : List Msg} : s.chan = (r, none) :: q → Recalculates s .allIn q (s.taken ++ [(r, none)])
  | fire : Recalculates s (.other .fire) s.chan s.taken

/-- `P`: the processes, with intervals of length `d`; `lo`: healthd's time zone. -/
inductive Step (sort : List IntAgg → List IntAgg) (lo : Int → Int) (d : Int) (P : List Proc) : Sys → Item → Sys → Prop where
  | act {s : Sys} {i : Nat} {x : Time × AggOp} : Step sort lo d P s (.act i x) { s with past := s.past ++ [.act i x] }
  /-- a process answers a poll that is under way, each poll at most once -/
  | serve {s : Sys} {r i : Nat} {now : Time} {p : Proc} {y : Rounds.Round} : P[i]? = some p → s.loop.rounds[r]? = some y → p.hostPort ∈ y.polling →
      (∀ j now' q, Item.serve r j now' ∈ s.past → P[j]? = some q → q.hostPort ≠ p.hostPort) →
      Step sort lo d P s (.serve r i now) { s with past := s.past ++ [.serve r i now] }
  /-- poll.go:69 -/
  | deliver {s : Sys} {r : Nat} {hp : Str} {x : PollResponse} {o : Option Origin} {loop : Rounds.Sys} : Rounds.step s.loop (.deliver r hp) = some loop →
      Makes lo d P s.past r hp x o →
      Step sort lo d P s (.go (.deliver r hp)) { s with loop := loop, chan := s.chan ++ [(r, some (x, o))], past := s.past ++ [.go (.deliver r hp)] }
  /-- healthd.go:171 -/
  | finish {s : Sys} {r : Nat} {loop : Rounds.Sys} : Rounds.step s.loop (.finish r) = some loop →
      Step sort lo d P s (.go (.finish r)) { s with loop := loop, chan := s.chan ++ [(r, none)], past := s.past ++ [.go (.finish r)] }
  /-- healthd.go:134-136 -/
  | tick {s : Sys} {now : Key → Time} {loop : Rounds.Sys} {data : Healthd.State} : Rounds.step s.loop .tick = some loop →
      Healthd.step sort s.data (.purge now) = some data →
      Step sort lo d P s (.go .tick) { s with loop := loop, data := data, done := s.done ++ [.purge now], past := s.past ++ [.go .tick] }
  /-- healthd.go:137, 142 -/
  | consume {s : Sys} {r : Nat} {x : PollResponse} {o : Option Origin} {q : List Msg} {now1 now2 : Time} {loop : Rounds.Sys} {data : Healthd.State} :
      s.chan = (r, some (x, o)) :: q → Rounds.step s.loop .consume = some loop → Healthd.step sort s.data (.response x now1 now2) = some data →
      Step sort lo d P s (.go .consume) { s with
        loop := loop, chan := q, taken := s.taken ++ [(r, some (x, o))], data := data, done := s.done ++ [.response x now1 now2], past := s.past ++ [.go .consume] }
  | recalculate {s : Sys} {l : Rounds.Lab} {chan taken : List Msg} {ks : List Time} {entries : Time → List (Key × Unmarshal.Report)} {loop : Rounds.Sys}
      {data : Healthd.State} : Recalculates s l chan taken → Rounds.step s.loop l = some loop → (Op.recalculate ks entries).Valid s.data →
      Healthd.step sort s.data (.recalculate ks entries) = some data →
      Step sort lo d P s (.go l) { s with
        loop := loop, chan := chan, taken := taken, data := data, done := s.done ++ [.recalculate ks entries], past := s.past ++ [.go l] }
  | quiet {s : Sys} {l : Rounds.Lab} {loop : Rounds.Sys} : quiet l = true → Rounds.step s.loop l = some loop →
      Step sort lo d P s (.go l) { s with loop := loop, past := s.past ++ [.go l] }

/-- any execution. -/
inductive Reach (sort : List IntAgg → List IntAgg) (lo : Int → Int) (d : Int) (P : List Proc) (hostPorts : List Str) : Sys → Prop where
  | start (clock : Int) : Reach sort lo d P hostPorts (Watch.start clock hostPorts)
  | step {s s' : Sys} {x : Item} : Reach sort lo d P hostPorts s → Step sort lo d P s x s' → Reach sort lo d P hostPorts s'

end Watch
