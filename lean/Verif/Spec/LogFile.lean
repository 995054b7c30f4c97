import Verif.Spec.Writer
import Verif.Spec.Concurrent
import Verif.Lemmas.Shortest
/-!
# Specification: reading a log file
-/
namespace Spec

/-- the lines of a file, and what follows the last newline. -/
def lines : Str → List Str × Str
  | [] => ([], [])
  | c :: t => if c = 10 then ([] :: (lines t).1, (lines t).2)
    else match lines t with
      | ([], r) => ([], c :: r)
      | (l :: ls, r) => ((c :: l) :: ls, r)

/-- JSON values one after the other, as `json.Decoder` reads them. -/
def readAll : Nat → Str → Option (List Json)
  | 0, _ => none
  | fuel + 1, s => if ws s = [] then some [] else (readValue (s.length + 1) s).bind (fun p => (readAll fuel p.2).map (fun js => p.1 :: js))
def readLog (s : Str) : Option (List Json) := readAll (s.length + 1) s

/-- the middle of a line. -/
def MiddleSays (mid : Str) : World.Call → Prop
  | .event ev => mid = bs " event:" ++ ev
  | .eventErr ev e _ => ∃ m, e.message = some m ∧ mid = bs " event:" ++ ev ++ bs " err:" ++ m
  | .timing ev n => ∃ d, ShowsDuration d n ∧ mid = bs " event:" ++ ev ++ bs " time:" ++ d
  | .gauge ev v => ∃ g, ShowsFloat g v ∧ mid = bs " event:" ++ ev ++ bs " gauge:" ++ g
  | .complete st => ∃ n d, ShowsDuration d n ∧ mid = bs " status:" ++ st.str ++ bs " time:" ++ d

/-- the end of a line: all key/values, by key; nothing if there are none (or empty brackets). -/
def TailSays (tail : Str) (kv : Str → Option Str) : Prop :=
  (tail = [] ∧ ∀ k, kv k = none) ∨
  ∃ ps : List (Str × Str), ps.Pairwise (fun a b => Precedes a.1 b.1) ∧ (∀ k v, (k, v) ∈ ps ↔ kv k = some v) ∧
    tail = bs " kvs:[" ++ [32].intercalate (ps.map (fun p => p.1 ++ [58] ++ p.2)) ++ bs "]"

/-- a line says what the statement says, and when. -/
def LineSays (line : Str) (ns : Int) (m : Stmt) : Prop :=
  ∃ ts mid tail, line = bs "[" ++ ts ++ bs "]: job:" ++ m.1 ++ mid ++ tail ∧ readTime ts = some (ns, 0) ∧ MiddleSays mid m.2.1 ∧ TailSays tail m.2.2

/-- the strings in a statement. -/
inductive InStmt (m : Stmt) : Str → Prop
  | job : InStmt m m.1
  | event (ev : Str) : m.2.1 = .event ev → InStmt m ev
  | error (ev e t) : m.2.1 = .eventErr ev e t → InStmt m ev
  | message (ev e t s) : m.2.1 = .eventErr ev e t → e.message = some s → InStmt m s
  | timing (ev n) : m.2.1 = .timing ev n → InStmt m ev
  | gauge (ev v) : m.2.1 = .gauge ev v → InStmt m ev
  | key (k v) : m.2.2 k = some v → InStmt m k
  | value (k v) : m.2.2 k = some v → InStmt m v

/-- a number in a statement is a float64. -/
def FloatsOk (m : Stmt) : Prop := ∀ ev v, m.2.1 = .gauge ev v → v.Valid

/-- a reported error has a message (it is not nil, else the `WriterSink` panics, C36). -/
def ErrorsOk (m : Stmt) : Prop := ∀ ev e t, m.2.1 = .eventErr ev e t → e.message ≠ none

/-- JSON can express it. -/
def inJson (m : Stmt) : Bool :=
  match m.2.1 with
  | .gauge _ v => v.isFinite
  | _ => true

/-- the members of a record beside job, time and key/values. -/
def FieldsSay (j : Json) : World.Call → Prop
  | .event ev => j.field (bs "Event") = some (.str ev)
  | .eventErr ev e _ => j.field (bs "Event") = some (.str ev) ∧ ∀ m, e.message = some m → j.field (bs "Err") = some (.str m)
  | .timing ev n => j.field (bs "Event") = some (.str ev) ∧ j.field (bs "Nanoseconds") = some (.num n)
  | .gauge ev v => j.field (bs "Event") = some (.str ev) ∧ ∃ x, j.field (bs "Value") = some x ∧ IsFloat x v
  | .complete st => j.field (bs "Status") = some (.str st.str) ∧ ∃ n : Int, j.field (bs "Nanoseconds") = some (.num n)

/-- a record says what the statement says, and when. -/
structure RecordSays (j : Json) (ns : Int) (m : Stmt) : Prop where
  job : j.field (bs "Job") = some (.str m.1)
  time : ∃ ts, j.field (bs "Timestamp") = some (.str ts) ∧ readTime ts = some (ns, 0)
  fields : FieldsSay j m.2.1
  kvs : (j.field (bs "Kvs") = some .null ∧ ∀ k, m.2.2 k = none) ∨
    ∃ ms, j.field (bs "Kvs") = some (.obj ms) ∧ ∀ k, member k ms = (m.2.2 k).map .str

/-- what was written by goroutine `a`, with the times. -/
def writtenBy {α : Type} (a : Nat) (l : List (Int × Nat × α)) : List (Int × α) := (l.filter (fun x => x.2.1 = a)).map (fun x => (x.1, x.2.2))

end Spec
