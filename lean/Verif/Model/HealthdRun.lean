import Verif.Model.HealthdLoop
import Verif.Model.Api
/-!
# healthd running: goroutines, data and requests together
Puts the model of who waits for whom (`Model/HealthdLoop.lean`), the model of the data (`Model/Healthd.lean`) and the handlers (`Model/Api.lean`) together:
the aggregation goroutine works on the data, a handler gets a copy of some of them over a channel and afterwards reads `hd.intervalDuration` by itself
(/repo/healthd/api.go:133-173).
Simplified: a piece of work of the aggregation goroutine between two channel operations is one step, and so is what a handler does from reading
`hd.intervalDuration` to its answer.  A panic ends the program (there is no step).
-/
namespace HdRun
open Healthd

/-- a request: its handler, the parameters of the query, and what Go leaves open in handling it. -/
structure Request where
  endpoint : Api.Endpoint
  sort : Str
  limit : Str
  choices : Api.Choices

/-- api.go:166: only this handler calls `getHosts`, the others call `getAggregationSequence` (api.go:134, 143, 155). -/
def Request.asksHosts (r : Request) : Bool := r.endpoint = .hosts

/-- what `getAggregationSequence` or `getHosts` returned to a handler (healthd.go:174-190); `none` = nil. -/
inductive Given where
  | intervals (l : Option (List IntAgg))
  | hosts (l : Option (List HostStatus))

/-- api.go:133-173: what the handler makes its answer from; `d`: `c.hd.intervalDuration`. -/
def Given.view (d : Int) : Given → Api.View
  | .intervals l => ⟨l, none, d⟩
  | .hosts l => ⟨none, l, d⟩

structure Sys where
  loop : HdLoop.Sys
  data : Healthd.State
  /-- what the aggregation goroutine did so far -/
  done : List Healthd.Op
  /-- requests by number: what they were given, what they answered -/
  given : Nat → Option Given
  answer : Nat → Option HttpResp

/-- healthd.go:66-93. -/
def start (clock : Int) (hostPorts : List Str) : Sys :=
  ⟨HdLoop.init clock (Healthd.init hostPorts).hostStatus.length, Healthd.init hostPorts, [], fun _ => none, fun _ => none⟩

/-- healthd.go:133-146: which work belongs to which case of the `select`; one poll for each of the `hosts` hosts. -/
def Does (hosts : Nat) : HdLoop.Lab → Healthd.Op → Prop
  | .tick n, .purge _ => n = hosts
  | .consume, .response _ _ _ => True
  | .allIn, .recalculate _ _ => True
  | .fire, .recalculate _ _ => True
  | _, _ => False

/-- steps that do nothing to the data; a request is sent on the channel of its handler (healthd.go:179, 188). -/
def Silent (reqs : Nat → Request) : HdLoop.Lab → Prop
  | .tick _ => False
  | .consume => False
  | .allIn => False
  | .fire => False
  | .call _ => False
  | .reply => False
  | .enqueue i hosts => hosts = (reqs i).asksHosts
  | _ => True

inductive Step (sort : List IntAgg → List IntAgg) (identifier : Str) (zone : Nat → Int → Int) (reqs : Nat → Request) : Sys → Sys → Prop where
  /-- the aggregation goroutine works (healthd.go:134-146) -/
  | work {s : Sys} {l : HdLoop.Lab} {op : Healthd.Op} {loop : HdLoop.Sys} {data : Healthd.State} :
      Does s.data.hostStatus.length l op → HdLoop.step s.loop l = some loop → op.Valid s.data → Healthd.step sort s.data op = some data →
      Step sort identifier zone reqs s { s with loop := loop, data := data, done := s.done ++ [op] }
  /-- channel operations, polls, the debouncer, `Stop` -/
  | other {s : Sys} {l : HdLoop.Lab} {loop : HdLoop.Sys} : Silent reqs l → HdLoop.step s.loop l = some loop →
      Step sort identifier zone reqs s { s with loop := loop }
  /-- handler `i` begins; after `Stop` it gets nil (healthd.go:175-177, 184-186); unknown paths have other handlers (api.go:66-68) -/
  | call {s : Sys} {i : Nat} {loop : HdLoop.Sys} : (reqs i).endpoint ≠ .notFound → HdLoop.step s.loop (.call i) = some loop →
      Step sort identifier zone reqs s { s with
        loop := loop
        given := if loop.req i = .refused then HdLoop.set s.given i (some (if (reqs i).asksHosts then .hosts none else .intervals none)) else s.given }
  /-- the aggregation goroutine answers handler `i` (healthd.go:147-150); `order`: the order of the iteration over the hosts -/
  | reply {s : Sys} {i : Nat} {loop : HdLoop.Sys} {order : List (Str × HostStatus)} : s.loop.main = .replying i → HdLoop.step s.loop .reply = some loop →
      order.Perm s.data.hostStatus →
      Step sort identifier zone reqs s { s with
        loop := loop
        given := HdLoop.set s.given i (some (if (reqs i).asksHosts then .hosts (some (memorySafeHosts order)) else .intervals (some (memorySafeIntervals s.data)))) }
  /-- handler `i` reads the duration and answers (api.go:135-139, 144-149, 156-161, 168-172) -/
  | finish {s : Sys} {i : Nat} {g : Given} : s.given i = some g → s.answer i = none →
      Step sort identifier zone reqs s { s with
        answer := HdLoop.set s.answer i (some (Api.respond (reqs i).choices identifier zone (g.view s.data.intervalDuration) (reqs i).sort (reqs i).limit (reqs i).endpoint)) }

/-- any execution: the states before, and the present one. -/
inductive Trace (sort : List IntAgg → List IntAgg) (identifier : Str) (zone : Nat → Int → Int) (reqs : Nat → Request) (hostPorts : List Str) : List Sys → Sys → Prop where
  | start (clock : Int) : Trace sort identifier zone reqs hostPorts [] (HdRun.start clock hostPorts)
  | step {past : List Sys} {s s' : Sys} : Trace sort identifier zone reqs hostPorts past s → Step sort identifier zone reqs s s' →
      Trace sort identifier zone reqs hostPorts (past ++ [s]) s'

end HdRun
