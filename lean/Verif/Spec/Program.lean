import Verif.Spec.Stream
import Verif.Spec.Counters
/-!
# Specification: what a program says
Read off the program's own calls, without the stream.
-/
namespace Spec

/-- the names of the jobs after the calls `ops`: the stream itself is the job "general"; `NewJob` adds one. -/
def jobNames (ops : List World.Op) : List Str := bs "general" :: ops.filterMap (fun | .newJob n => some n | _ => none)

/-- the statements of the program, in order: job name and call; `names` are the jobs that exist at the beginning. -/
def statements : List Str → List World.Op → List (Str × World.Call)
  | _, [] => []
  | names, .newJob n :: t => statements (names ++ [n]) t
  | names, .emit j c _ :: t => (names[j]?.toList.map (fun n => (n, c))) ++ statements names t
  | names, _ :: t => statements names t

/-- the call of the sink says what the statement says.  (A duration is measured by the library, see C03.) -/
def Conveys (c : SinkCall) (m : Str × World.Call) : Prop :=
  c.job = m.1 ∧
  match m.2 with
  | .event ev => c.payload = .event ev
  | .eventErr ev e _ => ∃ g, c.payload = .eventErr ev g ∧ g.message = e.message
  | .timing ev n => c.payload = .timing ev n
  | .gauge ev v => c.payload = .gauge ev v
  | .complete st => ∃ n, c.payload = .complete st n

/-- the calls of sink `s`. -/
def heard (s : Nat) (w : World) : List SinkCall := w.calls.filter (fun c => c.sink = s)

/-- 1 for a completion with status `st`. -/
def completesWith (st : Status) : World.Call → Int
  | .complete s => if s = st then 1 else 0
  | _ => 0

/-- what a statement adds to a number of the metrics (`none`: it has nothing to do with it).  Sums of the measured durations of jobs are left out: they are not
in the program. -/
def adds : Counter → Str × World.Call → Option Int
  | .event ev, (_, .event e) => if e = ev then some 1 else none
  | .error ev, (_, .eventErr e _ _) => if e = ev then some 1 else none
  | .timerCount ev, (_, .timing e _) => if e = ev then some 1 else none
  | .timerSum ev, (_, .timing e n) => if e = ev then some n else none
  | .jobEvent j ev, (job, .event e) => if job = j ∧ e = ev then some 1 else none
  | .jobError j ev, (job, .eventErr e _ _) => if job = j ∧ e = ev then some 1 else none
  | .jobTimerCount j ev, (job, .timing e _) => if job = j ∧ e = ev then some 1 else none
  | .jobTimerSum j ev, (job, .timing e n) => if job = j ∧ e = ev then some n else none
  | .jobCount j, (job, c) => if job = j then some (match c with | .complete _ => 1 | _ => 0) else none
  | .jobSuccess j, (job, c) => if job = j then some (completesWith Status.success c) else none
  | .jobValidationError j, (job, c) => if job = j then some (completesWith Status.validationError c) else none
  | .jobPanic j, (job, c) => if job = j then some (completesWith Status.panic c) else none
  | .jobErrors j, (job, c) => if job = j then some (completesWith Status.error c) else none
  | .jobJunk j, (job, c) => if job = j then some (completesWith Status.junk c) else none
  | _, _ => none

/-- a number that the program determines. -/
def Said : Counter → Prop
  | .jobSum _ => False
  | _ => True

end Spec
