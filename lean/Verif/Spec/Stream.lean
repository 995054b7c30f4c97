import Verif.Model.Stream
/-!
# Specification vocabulary for streams and jobs
-/
namespace Spec

/-- value of a key in a possibly nil map. -/
def lookup (m : Option (GoMap Str Str)) (k : Str) : Option Str := m.bind (·.get? k)

/-- the call's value wins over the job's, which wins over the stream's. -/
def precedence (call job stream : Option (GoMap Str Str)) (k : Str) : Option Str :=
  match lookup call k with
  | some v => some v
  | none =>
    match lookup job k with
    | some v => some v
    | none => lookup stream k

/-- nil or without entries. -/
def NoPairs (m : Option (GoMap Str Str)) : Prop := m = none ∨ m = some []

/-- `new` consists of exactly one call of each sink, in order, for the job, all with the same key/value map, and with an
acceptable payload. -/
def FanOut (sinks : List Nat) (job : Str) (ok : Payload → Prop) (new : List SinkCall) : Prop :=
  new.map (·.sink) = sinks ∧ (∀ c ∈ new, c.job = job ∧ ok c.payload) ∧
  (∀ c ∈ new, ∀ c' ∈ new, c.kvs = c'.kvs ∧ c.seen = c'.seen)

/-- the time from `start` to `t`, cut off at the ends of the int64 range. -/
def elapsed (start t : Int) : Int := max (-9223372036854775808) (min 9223372036854775807 (t - start))

/-- what sinks must be given for a call; `returned` is the error that the call returns, `start` the job's start time. -/
def PayloadFor (clock : Nat → Int) (start : Int) (returned : GoErr) : World.Call → Payload → Prop
  | .event ev, p => p = .event ev
  | .eventErr ev _ _, p => p = .eventErr ev returned
  | .timing ev n, p => p = .timing ev n
  | .gauge ev v, p => p = .gauge ev v
  | .complete st, p => ∃ i, p = .complete st (elapsed start (clock i))

/-- object identity of an unmuted error. -/
def objId : GoErr → Option Nat
  | .unmuted id _ _ => some id
  | _ => none

/-- error values that health has to wrap: neither muted nor already wrapped. -/
def Plain : GoErr → Prop
  | .nil => True
  | .other _ => True
  | _ => False

/-- operations that a program can really perform: maps have different keys, and error objects passed in exist already. -/
def LegalOp (w : World) : World.Op → Prop
  | .newMap m => GoMap.Wf m
  | .emit _ (.eventErr _ e _) _ => ∀ id, objId e = some id → id < w.nextErr
  | _ => True

/-- a legal sequence of operations. -/
def LegalRun (clock : Nat → Int) (w : World) : List World.Op → Prop
  | [] => True
  | op :: ops => LegalOp w op ∧ LegalRun clock (w.step clock op) ops

/-- worlds that occur. -/
def Reachable (clock : Nat → Int) (w : World) : Prop :=
  ∃ ops, LegalRun clock (World.newStream clock) ops ∧ w = (World.newStream clock).run clock ops

/-- the operation writes to the map at `r` by its reference. -/
def WritesMap (r : Nat) : World.Op → Prop
  | .mapSet i _ _ => i = r
  | _ => False

end Spec

namespace Spec

/-- last value written to key `k` by the operations selected by `sel`. -/
def lastWrite (sel : World.Op → Option (Str × Str)) (ops : List World.Op) (k : Str) : Option Str :=
  (((ops.filterMap sel).filter (fun p => p.1 = k)).getLast?).map (·.2)

/-- writes to the stream's key/values. -/
def streamWrites : World.Op → Option (Str × Str)
  | .streamKv k v => some (k, v)
  | _ => none

/-- writes to the key/values of job `j`. -/
def jobWrites (j : Nat) : World.Op → Option (Str × Str)
  | .jobKv j' k v => if j' = j then some (k, v) else none
  | _ => none

/-- legal, and the program writes directly (`m[k] = v`) only to maps of its own, not to the ones inside stream and jobs. -/
def CleanOp (w : World) (op : World.Op) : Prop :=
  LegalOp w op ∧
  match op with
  | .mapSet i _ _ => w.kvs ≠ some i ∧ ∀ job ∈ w.jobs, job.kvs ≠ some i
  | .jobKv j _ _ => j < w.jobs.length
  | _ => True

def CleanRun (clock : Nat → Int) (w : World) : List World.Op → Prop
  | [] => True
  | op :: ops => CleanOp w op ∧ CleanRun clock (w.step clock op) ops

end Spec
