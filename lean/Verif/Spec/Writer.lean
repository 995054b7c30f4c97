import Verif.Spec.Json
import Verif.Spec.TimeText
import Verif.Model.Stream
/-!
# Specification of the log records
-/
namespace Spec

/-- bytewise order of strings: a proper prefix, or a smaller byte at the first difference. -/
def Precedes (x y : Str) : Prop :=
  (∃ t, t ≠ [] ∧ y = x ++ t) ∨ ∃ p a b s t, x = p ++ a :: s ∧ y = p ++ b :: t ∧ a < b

/-- the entries of a map in increasing order of their keys. -/
def InKeyOrder (m : GoMap Str Str) (ps : List (Str × Str)) : Prop :=
  ps.Perm m ∧ ps.Pairwise (fun a b => Precedes a.1 b.1)

/-- nanoseconds in a unit of time. -/
def unitNanos (u : Str) : Option Int :=
  if u = bs "ns" then some 1 else if u = bs "μs" then some 1000 else if u = bs "ms" then some 1000000 else none

/-- a text showing a duration: a whole number and a unit, truncated; nanoseconds up to 2 µs, microseconds up to 2 ms, else milliseconds. -/
def ShowsDuration (s : Str) (nanos : Int) : Prop :=
  ∃ num unit k u, cut 32 s = some (num, unit) ∧ parseDec num = some (k : Int) ∧ unitNanos unit = some u ∧
    k * u ≤ nanos ∧ nanos < (k + 1) * u ∧ (u = 1 ↔ nanos ≤ 2000) ∧ (u = 1000000 ↔ 2000000 < nanos)

/-- a text showing a float64: it reads back as the same number (a negative zero counts as zero). -/
def ShowsFloat (s : Str) : F64 → Prop
  | .nan => s = bs "NaN"
  | .inf neg => s = if neg then bs "-Inf" else bs "+Inf"
  | v => ∃ x, readNum s = some x ∧ F64.rnd x = if v = .negZero then .fin 0 else v

/-- what a log line says between the job and the key/values. -/
def Says (mid : Str) : Payload → Prop
  | .event e => mid = bs " event:" ++ e
  | .eventErr e err => ∃ m, err.message = some m ∧ mid = bs " event:" ++ e ++ bs " err:" ++ m
  | .timing e n => ∃ d, ShowsDuration d n ∧ mid = bs " event:" ++ e ++ bs " time:" ++ d
  | .gauge e v => ∃ g, ShowsFloat g v ∧ mid = bs " event:" ++ e ++ bs " gauge:" ++ g
  | .complete st n => ∃ d, ShowsDuration d n ∧ mid = bs " status:" ++ st.str ++ bs " time:" ++ d

/-- the key/value part of a log line: nothing for a nil map, else all entries, sorted by key. -/
def ListsKvs (s : Str) : Option (GoMap Str Str) → Prop
  | none => s = []
  | some m => ∃ ps, InKeyOrder m ps ∧ s = bs " kvs:[" ++ [32].intercalate (ps.map (fun p => p.1 ++ [58] ++ p.2)) ++ bs "]"

/-- strings that come from the caller. -/
def callerStrings (job : Str) (p : Payload) (kvs : Option (GoMap Str Str)) : List Str :=
  job :: ((match p with
    | .event e => [e]
    | .eventErr e err => [e, (err.message).getD []]
    | .timing e _ => [e]
    | .gauge e _ => [e]
    | .complete _ _ => []) ++ (kvs.getD []).flatMap (fun p => [p.1, p.2]))

/-- member of a JSON object. -/
def member (name : Str) : List (Str × Json) → Option Json
  | [] => none
  | (k, v) :: t => if k = name then some v else member name t
def Json.field (name : Str) : Json → Option Json
  | .obj ms => member name ms
  | _ => none

/-- a JSON value standing for a `map[string]string` (null for nil). -/
def IsKvs (j : Json) (kvs : Option (GoMap Str Str)) : Prop :=
  match kvs with
  | none => j = .null
  | some m => ∃ ms, j = .obj ms ∧ ms.length = m.length ∧ ∀ k, member k ms = (m.get? k).map .str

/-- a JSON number standing for a float64 (a negative zero counts as zero). -/
def IsFloat (j : Json) (v : F64) : Prop := ∃ x, j = .num x ∧ F64.rnd x = if v = .negZero then .fin 0 else v

/-- the fields of a record beside job, time and key/values. -/
def PayloadFields (j : Json) : Payload → Prop
  | .event e => j.field (bs "Event") = some (.str e)
  | .eventErr e err => j.field (bs "Event") = some (.str e) ∧ ∀ m, err.message = some m → j.field (bs "Err") = some (.str m)
  | .timing e n => j.field (bs "Event") = some (.str e) ∧ j.field (bs "Nanoseconds") = some (.num n)
  | .gauge e v => j.field (bs "Event") = some (.str e) ∧ ∃ x, j.field (bs "Value") = some x ∧ IsFloat x v
  | .complete st n => j.field (bs "Status") = some (.str st.str) ∧ j.field (bs "Nanoseconds") = some (.num n)

/-- a JSON value tells everything about an emission at an instant. -/
structure Tells (j : Json) (ns : Int) (job : Str) (p : Payload) (kvs : Option (GoMap Str Str)) : Prop where
  job : j.field (bs "Job") = some (.str job)
  time : ∃ ts, j.field (bs "Timestamp") = some (.str ts) ∧ readTime ts = some (ns, 0)
  payload : PayloadFields j p
  kvs : ∃ x, j.field (bs "Kvs") = some x ∧ IsKvs x kvs

end Spec
