import Verif.Model.Healthd
import Verif.Model.HealthdMain
import Verif.Model.Api
import Verif.Model.Stream
/-!
# healthd's own instrumentation
Models how healthd uses its own stream (cmd/healthd/main.go:33-46): every poll (poll.go:23-70, one goroutine per host), every recalculation (healthd.go:280-303)
and every request to the API (api.go:102-131) makes a job of its own and reports to it.  Any number of these activities run at the same time: their calls interleave
in any order.  A call of a job is one step (the sinks are called by the goroutine that makes the call; a literal `Kvs{…}` is made within the step).
Not modelled: a handler that panics (its request is not completed); activities end, or wait, between their calls as they like.
-/
namespace OwnHealth
open Healthd

/-- one call of a job with the literal key/values given to it (`none` = the variant without). -/
abbrev Say := World.Call × Option (GoMap Str Str)

/-- poll.go:24, 40-67: what a poll reports; `trace`: where an error was captured; `res`: what the HTTP client returned. -/
def pollCalls (localOffset : Int → Int) (fresh : Nat) (jsonErr : Str) (trace : Trace) (hostPort : Str) (res : HttpResult) : List Say :=
  let err : Option (Str × Str) :=
    match res with
    | .failed e => some (bs "poll.client.get", e)
    | .answer _ _ (some e) => some (bs "poll.ioutil.read_all", e)
    | .answer _ body none =>
      match Unmarshal.unmarshal localOffset fresh body with
      | none => some (bs "poll.json.unmarshall", jsonErr)
      | some _ => none
  match err with
  | some (ev, e) => [(.eventErr ev (.other e) trace, none), (.complete .error, some [(bs "host_port", hostPort)])]
  | none => [(.complete .success, some [(bs "host_port", hostPort)])]

/-- an activity of healthd; the poll has the parameters of `Healthd.poll`, the request the status code of the answer. -/
inductive Work where
  | poll (localOffset : Int → Int) (fresh : Nat) (jsonErr : Str) (trace : Trace) (hostPort : Str) (res : HttpResult)
  | recalculate
  | request (e : Api.Endpoint) (path : Str) (code : Int)

/-- the name of its job (poll.go:24, healthd.go:281, api.go:103). -/
def Work.job : Work → Str
  | .poll .. => bs "poll"
  | .recalculate => bs "recalculate"
  | .request e _ _ => e.path

/-- what it reports, in order (poll.go:40-67, healthd.go:302, api.go:106-130). -/
def Work.calls : Work → List Say
  | .poll lo fresh je trace hp res => pollCalls lo fresh je trace hp res
  | .recalculate => [(.complete .success, none)]
  | .request _ path code => [(.event (bs "starting_request"), some [(bs "path", path)]),
      (.complete (Api.completionStatus code), some [(bs "code", intStr code), (bs "path", path)])]

/-- an activity and the number of its calls already made. -/
structure Thread where
  work : Work
  done : Nat

/-- the stream, and the activities in the order in which they made their jobs: activity `i` has job `i + 1` (job 0 is the stream's own). -/
structure State where
  world : World
  threads : List Thread

/-- cmd/healthd/main.go:33-46: two sinks (0: the writer, 1: the polling sink) and an event. -/
def bootOps (env : Str → Str) (hostPorts : Str) : List World.Op :=
  [.addSink 0, .addSink 1, .newMap [(bs "monitored_host_ports", hostPorts), (bs "server_host_port", HealthdMain.getServerHostPort env),
    (bs "health_host_port", HealthdMain.getHealthHostPort env)], .emit 0 (.event (bs "starting")) (some 0)]

def boot (clock : Nat → Int) (env : Str → Str) (hostPorts : Str) : State :=
  ⟨(World.newStream clock).run clock (bootOps env hostPorts), []⟩

/-- an activity begins (makes its job), or activity `i` makes its next call. -/
inductive Step where
  | start (w : Work)
  | proceed (i : Nat)

/-- requests for unknown paths do not reach the middleware (api.go:64-81). -/
def Work.reaches : Work → Bool
  | .request e _ _ => e ≠ .notFound
  | _ => true

def stepOps (s : State) : Step → Option (List World.Op)
  | .start w => if w.reaches then some [.newJob w.job] else none
  | .proceed i =>
    match s.threads[i]? with
    | none => none
    | some t =>
      match t.work.calls[t.done]? with
      | none => none
      | some (c, none) => some [.emit (i + 1) c none]
      | some (c, some m) => some [.newMap m, .emit (i + 1) c (some s.world.maps.length)]

def step (clock : Nat → Int) (s : State) (e : Step) : Option State :=
  (stepOps s e).map (fun ops => ⟨s.world.run clock ops,
    match e with
    | .start w => s.threads ++ [⟨w, 0⟩]
    | .proceed i => s.threads.modify i (fun t => { t with done := t.done + 1 })⟩)

def run (clock : Nat → Int) (s : State) (es : List Step) : Option State := es.foldlM (step clock) s

end OwnHealth
