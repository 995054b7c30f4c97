import Verif.Model.Stream
/-!
# Several goroutines with one stream
Models /repo/health.go with its memory accesses one by one: each goroutine runs a program of calls, and between any two reads and writes of memory that others can
reach the other goroutines may do any number of steps.  (Sequentially consistent interleavings; what Go guarantees beyond them is nothing: a program with a data race
has no defined behaviour, see `Race`.)
One read or write of a whole map (`len`, a `range` loop, the sink reading its key/values) is one step.  The slice `Sinks` is a value (its backing array is not
modelled).  The fields `JobName`, `Start`, `Stream` of a job are never written after its creation and need no steps.  Sinks read the map and the error only during the
call (not so the Bugsnag sink, see C80).
-/
namespace Concurrent

/-- a job as the program of a goroutine names it: one that existed before (and others may use), or the `i`-th that the goroutine made. -/
inductive JobRef where
  | shared (i : Nat)
  | own (i : Nat)
deriving DecidableEq, Repr

/-- the calls of a program; the key/values of a Kv variant are a literal `Kvs{…}`. -/
inductive Op where
  | addSink (s : Nat)
  | streamKv (k v : Str)
  | newJob (name : Str)
  | jobKv (j : JobRef) (k v : Str)
  | emit (j : JobRef) (c : World.Call) (kvs : Option (GoMap Str Str))
deriving DecidableEq, Repr

/-- the field `KeyValues` of the stream or of a job (health.go:29, 34). -/
inductive Field where
  | stream
  | job (j : Nat)
deriving DecidableEq, Repr

/-- the local variables of a call that emits: job, arguments (the error already wrapped), the map given. -/
structure Ctx where
  job : Nat
  call : World.Call
  inst : MapRef
deriving DecidableEq, Repr

/-- where a goroutine is: between calls, or before a certain memory access within a call. -/
inductive Pc where
  | idle
  /-- health.go:75: the new slice is computed, not stored -/
  | store (sinks : List Nat)
  /-- health.go:80, 96 -/
  | kvTest (f : Field) (k v : Str)
  /-- health.go:81, 97 -/
  | kvMake (f : Field) (k v : Str)
  /-- health.go:83, 99 -/
  | kvSet (f : Field) (k v : Str)
  /-- health.go:189-192 -/
  | lenJob (x : Ctx)
  /-- health.go:193-196 -/
  | lenStream (x : Ctx) (n : Nat) (all : MapRef)
  /-- health.go:197-202 -/
  | lenInst (x : Ctx) (n : Nat) (all : MapRef)
  /-- health.go:204-206 -/
  | copyStream (x : Ctx)
  /-- health.go:207-209 -/
  | copyJob (x : Ctx) (m : GoMap Str Str)
  /-- health.go:210-212 -/
  | copyInst (x : Ctx) (m : GoMap Str Str)
  /-- `range j.Stream.Sinks` (health.go:105, 112, 120, …) -/
  | range (x : Ctx) (kvs : MapRef)
  /-- the sinks still to be called; when there are none, `err.Emitted = true` (health.go:123-125, 135-137) and return -/
  | call (x : Ctx) (kvs : MapRef) (rest : List Nat)
deriving DecidableEq, Repr

/-- a goroutine: the calls to come, where it is, the jobs it made. -/
structure Thread where
  todo : List Op
  pc : Pc
  own : List Nat
deriving DecidableEq, Repr

def Thread.resolve (t : Thread) : JobRef → Option Nat
  | .shared i => some i
  | .own i => t.own[i]?

def getField (w : World) : Field → MapRef
  | .stream => w.kvs
  | .job j => (w.jobs[j]?).bind (·.kvs)

def setField (w : World) (f : Field) (r : MapRef) : World :=
  match f with
  | .stream => { w with kvs := r }
  | .job j => { w with jobs := w.jobs.modify j (fun job => { job with kvs := r }) }

/-- `wrapErr` (health.go:118, 130) before anything else. -/
def wrapCall (w : World) : World.Call → World × World.Call
  | .eventErr ev e tr => ((w.wrapErr e tr).1, .eventErr ev (w.wrapErr e tr).2 tr)
  | c => (w, c)

/-- the literal `Kvs{…}`. -/
def literal (w : World) : Option (GoMap Str Str) → World × MapRef
  | none => (w, none)
  | some m => ((w.newMap m).1, some (w.newMap m).2)

/-- the arguments of the sink's method (health.go:106, 113, 121, 133, 144, 151, 158, 165, 172, 179); `Complete` reads the clock for each sink. -/
def payload (clock : Nat → Int) (w : World) (start : Int) : World.Call → World × Payload
  | .event ev => (w, .event ev)
  | .eventErr ev e _ => (w, .eventErr ev e)
  | .timing ev n => (w, .timing ev n)
  | .gauge ev v => (w, .gauge ev v)
  | .complete st => ({ w with reads := w.reads + 1 }, .complete st (World.timeSub (clock w.reads) start))

/-- `err.Emitted = true` for an unmuted error. -/
def mark (w : World) : World.Call → World
  | .eventErr _ e _ => w.markEmitted e
  | _ => w

/-- the next step of a goroutine: the memory, the goroutine, and the call of a sink if it is one. `none`: it has ended (or its program names a job that does not exist). -/
def tstep (clock : Nat → Int) (w : World) (t : Thread) : Option (World × Thread × List SinkCall) :=
  match t.pc with
  | .idle =>
    match t.todo with
    | [] => none
    | .addSink s :: r => some (w, { t with todo := r, pc := .store (w.sinks ++ [s]) }, [])
    | .streamKv k v :: r => some (w, { t with todo := r, pc := .kvTest .stream k v }, [])
    | .newJob n :: r => some (w.newJob clock n, { t with todo := r, own := t.own ++ [w.jobs.length] }, [])
    | .jobKv j k v :: r => (t.resolve j).map (fun j => (w, { t with todo := r, pc := .kvTest (.job j) k v }, []))
    | .emit j c kvs :: r => (t.resolve j).map (fun j =>
        ((literal (wrapCall w c).1 kvs).1, { t with todo := r, pc := .lenJob ⟨j, (wrapCall w c).2, (literal (wrapCall w c).1 kvs).2⟩ }, []))
  | .store l => some ({ w with sinks := l }, { t with pc := .idle }, [])
  | .kvTest f k v => some (w, { t with pc := if getField w f = none then .kvMake f k v else .kvSet f k v }, [])
  | .kvMake f k v => some (setField (w.newMap []).1 f (some (w.newMap []).2), { t with pc := .kvSet f k v }, [])
  | .kvSet f k v =>
    match getField w f with
    | none => none
    | some i => some (w.mapSet i k v, { t with pc := .idle }, [])
  | .lenJob x =>
    let r := getField w (.job x.job)
    some (w, { t with pc := if w.len r > 0 then .lenStream x 1 r else .lenStream x 0 none }, [])
  | .lenStream x n all => some (w, { t with pc := if w.len w.kvs > 0 then .lenInst x (n + 1) w.kvs else .lenInst x n all }, [])
  | .lenInst x n all =>
    let p := if w.len x.inst > 0 then (n + 1, x.inst) else (n, all)
    some (w, { t with pc := if p.1 > 1 then .copyStream x else .range x p.2 }, [])
  | .copyStream x => some (w, { t with pc := .copyJob x (World.copyInto [] ((w.deref w.kvs).getD [])) }, [])
  | .copyJob x m => some (w, { t with pc := .copyInst x (World.copyInto m ((w.deref (getField w (.job x.job))).getD [])) }, [])
  | .copyInst x m =>
    let p := w.newMap (World.copyInto m ((w.deref x.inst).getD []))
    some (p.1, { t with pc := .range x (some p.2) }, [])
  | .range x kvs => some (w, { t with pc := .call x kvs w.sinks }, [])
  | .call x _ [] => some (mark w x.call, { t with pc := .idle }, [])
  | .call x kvs (s :: rest) =>
    match w.jobs[x.job]? with
    | none => none
    | some job =>
      let p := payload clock w job.start x.call
      some (p.1, { t with pc := .call x kvs rest }, [⟨s, job.name, p.2, kvs, w.deref kvs, w.isEmitted p.2⟩])

/-! ## Memory accesses and races -/

inductive Loc where
  | sinks
  | field (f : Field)
  | map (i : Nat)
  /-- the field `Emitted` of an error -/
  | flag (id : Nat)
deriving DecidableEq, Repr

def readMap (r : MapRef) : List (Loc × Bool) := (r.map (fun i => (Loc.map i, false))).toList

/-- the error's identity. -/
def flagOf : World.Call → Option Nat
  | .eventErr _ (.unmuted id _ _) _ => some id
  | _ => none

/-- what the next step of the goroutine reads (`false`) and writes (`true`) of the memory that others can reach. -/
def accesses (w : World) (t : Thread) : List (Loc × Bool) :=
  match t.pc with
  | .idle =>
    match t.todo with
    | .addSink _ :: _ => [(.sinks, false)]
    | _ => []
  | .store _ => [(.sinks, true)]
  | .kvTest f _ _ => [(.field f, false)]
  | .kvMake f _ _ => [(.field f, true)]
  | .kvSet f _ _ => (.field f, false) :: ((getField w f).map (fun i => (Loc.map i, true))).toList
  | .lenJob x => (.field (.job x.job), false) :: readMap (getField w (.job x.job))
  | .lenStream _ _ _ => (.field .stream, false) :: readMap w.kvs
  | .lenInst x _ _ => readMap x.inst
  | .copyStream _ => (.field .stream, false) :: readMap w.kvs
  | .copyJob x _ => (.field (.job x.job), false) :: readMap (getField w (.job x.job))
  | .copyInst x _ => readMap x.inst
  | .range _ _ => [(.sinks, false)]
  | .call x _ [] => ((flagOf x.call).map (fun id => (Loc.flag id, true))).toList
  | .call x kvs (_ :: _) => readMap kvs ++ ((flagOf x.call).map (fun id => (Loc.flag id, false))).toList

/-- the memory, the goroutines, and all calls of sinks with the goroutine that made them. -/
structure State where
  world : World
  threads : List Thread
  log : List (Nat × SinkCall)

/-- goroutine `a` does its next step. -/
def step (clock : Nat → Int) (s : State) (a : Nat) : Option State :=
  match s.threads[a]? with
  | none => none
  | some t => (tstep clock s.world t).map (fun r => ⟨r.1, s.threads.set a r.2.1, s.log ++ r.2.2.map (fun c => (a, c))⟩)

/-- a schedule says whose turn it is. -/
def run (clock : Nat → Int) (s : State) (sched : List Nat) : Option State := sched.foldlM (step clock) s

/-- goroutines with the programs `ps`, started in the world `w`. -/
def start (w : World) (ps : List (List Op)) : State := ⟨w, ps.map (fun p => ⟨p, .idle, []⟩), []⟩

end Concurrent
