import Verif.Model.PollingSink
import Verif.Model.Metrics
/-!
# The HTTP server of a running polling sink
Models /repo/json_polling_sink_http.go:16-38 (`StartServer`, `ServeHTTP`): net/http runs the handler of every request in a goroutine of its own, beside
the sink's worker and the goroutines that emit.  A handler's call of `GetMetrics` has the number `2 c`, where `c` is the number of its request; calls by
others have odd numbers.  A snapshot does not change any more once it is taken (C15), so that it may be encoded at any later time.
-/

/-- what does not change: `Identifier`, the sink's interval duration, and the UTC offsets of the time zones. -/
structure SrvConf where
  identifier : Str
  d : Int
  zone : Nat → Int → Int

structure SrvSys where
  sink : PsSys
  /-- requests (and their paths) whose handler has not got its metrics, or does not need them -/
  waiting : List (Nat × Str)
  /-- requests whose handler has its metrics -/
  ready : List (Nat × List IntAgg)
deriving DecidableEq, Repr

inductive SrvLab where
  /-- a step of the sink's worker, of the goroutines that emit or shut down, or of another caller of `GetMetrics` -/
  | sink (l : PsLab)
  /-- a request arrives, and the handler gets to its call of `GetMetrics`, if it makes one -/
  | arrive (c : Nat) (path : Str)
  /-- the handler's call of `GetMetrics` returns -/
  | metrics (c : Nat) (snap : List IntAgg)
  /-- the handler has written its response -/
  | respond (c : Nat) (r : HttpResp)
deriving DecidableEq, Repr

/-- the label does not belong to a call of `GetMetrics` by a handler (the worker may take any request). -/
def PsLab.ofOthers : PsLab → Bool
  | .read i => i % 2 = 1
  | .got i _ => i % 2 = 1
  | _ => true

namespace SrvSys

/-- json_polling_sink.go:35-49, and no request so far. -/
def init (a : Aggregator) : SrvSys := ⟨PsSys.init a, [], []⟩

def step (C : SrvConf) (y : SrvSys) : SrvLab → Option SrvSys
  | .sink l => if l.ofOthers then (y.sink.step l).map (fun s => { y with sink := s }) else none
  | .arrive c path =>
    -- the number is not in use
    if c ∈ y.waiting.map (·.1) ∨ c ∈ y.ready.map (·.1) then none
    else if path = bs "/health" then (y.sink.step (.read (2 * c))).map (fun s => { y with sink := s, waiting := y.waiting ++ [(c, path)] })
    else some { y with waiting := y.waiting ++ [(c, path)] }
  | .metrics c snap =>
    if (c, bs "/health") ∈ y.waiting then
      (y.sink.step (.got (2 * c) snap)).map (fun s => { sink := s, waiting := y.waiting.filter (·.1 ≠ c), ready := y.ready ++ [(c, snap)] })
    else none
  | .respond c r =>
    match y.ready.find? (·.1 = c) with
    | some p => if r = serveHTTP (bs "/health") C.identifier C.d C.zone p.2 then some { y with ready := y.ready.filter (·.1 ≠ c) } else none
    | none => match y.waiting.find? (·.1 = c) with
      | some q => if q.2 ≠ bs "/health" ∧ r = serveHTTP q.2 C.identifier C.d C.zone [] then some { y with waiting := y.waiting.filter (·.1 ≠ c) } else none
      | none => none

def run (C : SrvConf) (y : SrvSys) : List SrvLab → Option SrvSys
  | [] => some y
  | l :: ls => (y.step C l).bind (fun y' => y'.run C ls)

end SrvSys
