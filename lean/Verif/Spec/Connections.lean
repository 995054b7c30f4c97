import Verif.Model.Connections
/-! What is open and who is still at work (C99). -/
namespace Conns.Spec

/-- does the request occupy a connection? -/
def holds (host : Str) (r : Req) : Bool := decide (r.host = host) && (decide (r.phase = .waiting) || decide (r.phase = .unread))

/-- the connections to a host that are open. -/
def openTo (host : Str) (s : State) : Nat := s.idle.count host + s.reqs.countP (holds host)

/-- has the caller still something to do? -/
def working (r : Req) : Bool :=
  match r.phase with
  | .start => true
  | .waiting => true
  | .unread => !r.todo.isEmpty
  | .free => !r.todo.isEmpty
  | .failed => false

/-- the requests to a host whose callers are at work. -/
def inProgress (host : Str) (s : State) : Nat := s.reqs.countP (fun r => decide (r.host = host) && working r)

/-- the requests of a run, in order: to whom, and what the caller does with the answer. -/
def calls : List Lab → List (Str × List Act)
  | [] => []
  | .call host code :: ls => (host, code) :: calls ls
  | _ :: ls => calls ls

/-- how many answers with a body the requests to `host` got whose callers throw the answer away. -/
def thrownAway (host : Str) (reqs : List (Str × List Act)) : List Lab → Nat
  | [] => 0
  | .answer i true _ :: ls => (if reqs[i]? = some (host, []) then 1 else 0) + thrownAway host reqs ls
  | _ :: ls => thrownAway host reqs ls

end Conns.Spec
