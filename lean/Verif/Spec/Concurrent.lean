import Verif.Model.Concurrent
import Verif.Spec.Program
/-!
# Specification: several goroutines with one stream
-/
namespace Spec
open Concurrent

/-- a data race: two goroutines are about to access the same memory, one of them to write. -/
def Race (s : State) : Prop :=
  ∃ (a b : Nat) (ta tb : Thread), a ≠ b ∧ s.threads[a]? = some ta ∧ s.threads[b]? = some tb ∧
    ∃ l wa wb, (l, wa) ∈ accesses s.world ta ∧ (l, wb) ∈ accesses s.world tb ∧ (wa = true ∨ wb = true)

/-- not an error that was wrapped before. -/
def NewErr : World.Call → Prop
  | .eventErr _ (.unmuted _ _ _) _ => False
  | _ => True

/-- the discipline: the goroutine leaves the stream's sinks and key/values alone, sets key/values only of jobs it made (`n` so far), emits from these and from the
`shared` ones, and does not report an error object a second time. -/
def Disciplined (shared : Nat) : Nat → List Concurrent.Op → Prop
  | _, [] => True
  | n, .newJob _ :: t => Disciplined shared (n + 1) t
  | n, .jobKv (.own i) _ _ :: t => i < n ∧ Disciplined shared n t
  | n, .emit j c kvs :: t => (match j with | .own i => i < n | .shared i => i < shared) ∧ NewErr c ∧ (∀ m, kvs = some m → GoMap.Wf m) ∧ Disciplined shared n t
  | _, _ => False

/-- a job: its name and key/values. -/
abbrev JobInfo := Str × (Str → Option Str)

/-- a statement: job name, call, key/values in force. -/
abbrev Stmt := Str × World.Call × (Str → Option Str)

/-- the call's value, else the job's, else the stream's. -/
def inForce (call : Option (GoMap Str Str)) (job stream : Str → Option Str) (k : Str) : Option Str :=
  match lookup call k with
  | some v => some v
  | none =>
    match job k with
    | some v => some v
    | none => stream k

/-- the statements of a program, read off the program alone. -/
def told (stream : Str → Option Str) (shared : List JobInfo) : List JobInfo → List Concurrent.Op → List Stmt
  | _, [] => []
  | own, .newJob n :: t => told stream shared (own ++ [((n, fun _ => none) : JobInfo)]) t
  | own, .jobKv (.own i) k v :: t => told stream shared (own.modify i (fun p => (p.1, fun k' => if k' = k then some v else p.2 k'))) t
  | own, .emit (.own i) c kvs :: t => (own[i]?.toList.map (fun p => (p.1, c, inForce kvs p.2 stream))) ++ told stream shared own t
  | own, .emit (.shared i) c kvs :: t => (shared[i]?.toList.map (fun p => (p.1, c, inForce kvs p.2 stream))) ++ told stream shared own t
  | own, _ :: t => told stream shared own t

/-- the statements of a program started in world `w`. -/
def toldIn (w : World) (p : List Concurrent.Op) : List Stmt := told (lookup (w.deref w.kvs)) (w.jobs.map (fun j => (j.name, lookup (w.deref j.kvs)))) [] p

/-- each statement goes to each sink. -/
def toEach (sinks : List Nat) (ms : List Stmt) : List (Nat × Stmt) := ms.flatMap (fun m => sinks.map (fun s => (s, m)))

/-- the call of the sink says what the statement says, with the key/values in force; its error was not reported before. -/
def TellsTo (x : Nat × Stmt) (c : SinkCall) : Prop :=
  c.sink = x.1 ∧ Conveys c (x.2.1, x.2.2.1) ∧ (∀ k, lookup c.seen k = x.2.2.2 k) ∧ c.seenEmitted = false

/-- the calls of sinks made by goroutine `a`. -/
def callsOf (a : Nat) (s : State) : List SinkCall := (s.log.filter (fun x => x.1 = a)).map (·.2)

/-- the goroutine has come to its end. -/
def Ended (t : Thread) : Prop := t.todo = [] ∧ t.pc = .idle

end Spec
