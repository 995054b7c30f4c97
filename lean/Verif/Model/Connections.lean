import Verif.Model.Librato
/-!
# Connections of outgoing HTTP requests
Models what healthd, healthtop and the two HTTP sinks do with the answer of a request: /repo/healthd/poll.go:36-59,
/repo/cmd/healthtop/jobs.go:70-82, /repo/cmd/healthtop/hosts.go:45-57, /repo/sinks/bugsnag/api.go:110-121,
/repo/sinks/librato/sink.go:296-310; and the part of net/http's `Transport` (HTTP/1.1) that decides how long a connection stays open:
a connection serves one request at a time; it can be used again after the body of the answer was read to its end; it is closed if the
body is closed earlier or cannot be read; it stays with the answer until then.  Answers without a body give it back at once.
At most two unused connections per host are kept (`DefaultMaxIdleConnsPerHost`).  All the clients of the code share `DefaultTransport`.
Not modelled: HTTP/2, redirects (part of one request here), the total limit and the time limit for unused connections (the server's
closing, label `hangUp`, is like the latter).
-/
namespace Conns

/-- what a caller does with an answer. -/
inductive Act where
  /-- `ioutil.ReadAll(resp.Body)` -/
  | readAll
  /-- `resp.Body.Close()` -/
  | close
deriving DecidableEq, Repr

/-- poll.go:40-59: `ReadAll`; `Close` is deferred. -/
def healthdPoll : List Act := [.readAll, .close]
/-- jobs.go:70-82 and hosts.go:45-57 likewise. -/
def healthtopPoll : List Act := [.readAll, .close]
/-- bugsnag/api.go:111-121: `ReadAll`, no `Close`. -/
def bugsnagNotify : List Act := [.readAll]
/-- librato/sink.go:306-310: the answer is thrown away. -/
def libratoSend : List Act := []

/-- where a request is. -/
inductive Phase where
  /-- it has no connection yet -/
  | start
  /-- sent over a connection; no answer yet -/
  | waiting
  /-- answered; the connection waits for the body to be read or closed -/
  | unread
  /-- answered; the connection was given back or closed -/
  | free
  /-- `Do` (`Get`, `Post`) returned an error: the caller returns -/
  | failed
deriving DecidableEq, Repr

structure Req where
  host : Str
  /-- what the caller has still to do with the answer -/
  todo : List Act
  phase : Phase
deriving DecidableEq, Repr

structure State where
  /-- the hosts of the unused connections -/
  idle : List Str
  /-- all requests made so far -/
  reqs : List Req
deriving DecidableEq, Repr

inductive Lab where
  /-- a caller makes a request -/
  | call (host : Str) (code : List Act)
  /-- request `i` gets a new connection -/
  | dial (i : Nat)
  /-- request `i` gets an unused connection -/
  | reuse (i : Nat)
  /-- request `i` gets no connection -/
  | refuse (i : Nat)
  /-- the connection of request `i` breaks (or its time is up) before the answer -/
  | broken (i : Nat)
  /-- request `i` is answered, with a body or without; `keep`: the server lets the connection be used again -/
  | answer (i : Nat) (body keep : Bool)
  /-- the caller of request `i` does what it has to do next; `ok`: reading succeeds -/
  | act (i : Nat) (ok keep : Bool)
  /-- an unused connection is closed -/
  | hangUp (host : Str)
  /-- a connection dialled for a request that got another one meanwhile -/
  | spare (host : Str)
deriving DecidableEq, Repr

/-- `Transport.tryPutIdleConn`: an unused connection is kept if there are fewer than two, else closed. -/
def giveBack (idle : List Str) (host : Str) (keep : Bool) : List Str :=
  if keep ∧ idle.count host < 2 then host :: idle else idle

/-- what an action does to the request and the unused connections. -/
def perform (idle : List Str) (r : Req) (a : Act) (rest : List Act) (ok keep : Bool) : List Str × Req :=
  match r.phase, a with
  | .unread, .readAll => (if ok then giveBack idle r.host keep else idle, { r with todo := rest, phase := .free })
  | .unread, .close => (idle, { r with todo := rest, phase := .free })
  | _, _ => (idle, { r with todo := rest })

def step (s : State) : Lab → Option State
  | .call host code => some { s with reqs := s.reqs ++ [⟨host, code, .start⟩] }
  | .dial i =>
    match s.reqs[i]? with
    | some r => if r.phase = .start then some { s with reqs := s.reqs.set i { r with phase := .waiting } } else none
    | none => none
  | .reuse i =>
    match s.reqs[i]? with
    | some r =>
      if r.phase = .start ∧ r.host ∈ s.idle then some ⟨s.idle.erase r.host, s.reqs.set i { r with phase := .waiting }⟩ else none
    | none => none
  | .refuse i =>
    match s.reqs[i]? with
    | some r => if r.phase = .start then some { s with reqs := s.reqs.set i { r with phase := .failed } } else none
    | none => none
  | .broken i =>
    match s.reqs[i]? with
    | some r => if r.phase = .waiting then some { s with reqs := s.reqs.set i { r with phase := .failed } } else none
    | none => none
  | .answer i body keep =>
    match s.reqs[i]? with
    | some r =>
      if r.phase = .waiting then
        if body then some { s with reqs := s.reqs.set i { r with phase := .unread } }
        else some ⟨giveBack s.idle r.host keep, s.reqs.set i { r with phase := .free }⟩
      else none
    | none => none
  | .act i ok keep =>
    match s.reqs[i]? with
    | some r =>
      match r.phase, r.todo with
      | .unread, a :: rest | .free, a :: rest =>
        some ⟨(perform s.idle r a rest ok keep).1, s.reqs.set i (perform s.idle r a rest ok keep).2⟩
      | _, _ => none
    | none => none
  | .hangUp host => if host ∈ s.idle then some { s with idle := s.idle.erase host } else none
  | .spare host => some { s with idle := giveBack s.idle host true }

def init : State := ⟨[], []⟩

def runFrom (s : State) : List Lab → Option State
  | [] => some s
  | l :: ls => (step s l).bind (fun s' => runFrom s' ls)
def run (ls : List Lab) : Option State := runFrom init ls

end Conns
