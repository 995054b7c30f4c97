import Verif.Model.Stream
import Verif.Model.Json
import Verif.Model.TimeText
import Mathlib.Data.List.Sort
/-!
# The log-writing sinks
Models /repo/writer_sink.go and /repo/json_writer_sink.go.  The clock reading enters as `ns` (UTC).  What a sink does is the list of byte
slices given to `io.Writer.Write`, in order; results of `Write` are ignored by the code.  `none` = the call panics.
-/

/-- Go's `<=` on strings: bytewise. -/
def strLe : Str → Str → Bool
  | [], _ => true
  | _ :: _, [] => false
  | a :: s, b :: t => decide (a < b) || (decide (a = b) && strLe s t)

/-- `sort.Strings`.  Equal strings are indistinguishable, so the algorithm does not matter. -/
def sortStrs (l : List Str) : List Str := l.insertionSort (fun a b => strLe a b = true)

/-- writer_sink.go:97-99 `timestamp`. -/
def timestamp (ns : Int) : Str := rfc3339 ns 0

/-- scientific notation with at least two exponent digits (strconv `%e` with shortest precision). -/
def sciStr (m : Nat) (d : ℤ) : Str :=
  let s := natStr m
  let e : ℤ := s.length - 1 - d
  s.take 1 ++ (if s.length ≤ 1 then [] else 46 :: s.drop 1) ++ [101] ++ (if e < 0 then [45] else [43]) ++
    (if e.natAbs < 10 then padDigits 2 e.natAbs else natStr e.natAbs)

/-- `fmt.Fprintf("%g", v)`: shortest digits; scientific if the exponent is below -4 or at least 6 (strconv/ftoa.go, `%g`: `eprec = 6` when
shortest). -/
def fmtG (v : F64) : Str :=
  match v with
  | .fin q =>
    if q = 0 then bs "0"
    else
      let p := shortest |q|
      let e : ℤ := (natStr p.1).length - 1 - p.2
      signStr (decide (q < 0)) ++ (if e < -4 ∨ e ≥ 6 then sciStr p.1 p.2 else decStr p.1 p.2)
  | _ => fmtShortest v

/-- writer_sink.go:125-134 `writeNanoseconds`; Go's `/` truncates, which makes no difference here (the dividends are positive). -/
def nanosText (nanos : Int) : Str :=
  if nanos > 2000000 then intStr (Int.tdiv nanos 1000000) ++ bs " ms"
  else if nanos > 2000 then intStr (Int.tdiv nanos 1000) ++ bs " μs"
  else intStr nanos ++ bs " ns"

/-- writer_sink.go:113-121: the pairs, separated by blanks.  `get` is the map lookup `kvs[k]`. -/
def pairsText (get : Str → Str) : List Str → Str
  | [] => []
  | [k] => k ++ [58] ++ get k
  | k :: k' :: t => k ++ [58] ++ get k ++ [32] ++ pairsText get (k' :: t)

/-- writer_sink.go:101-123 `writeMapConsistently`. -/
def kvsText (kvs : Option (GoMap Str Str)) : Str :=
  match kvs with
  | none => []
  | some m => bs " kvs:[" ++ pairsText (fun k => (m.get? k).getD []) (sortStrs m.keys) ++ bs "]"

namespace WriterSink

/-- the part of a line between job and key/values; `none`: `inputErr.Error()` panics. -/
def middle : Payload → Option Str
  | .event e => some (bs " event:" ++ e)
  | .eventErr e err => err.message.map (fun m => bs " event:" ++ e ++ bs " err:" ++ m)
  | .timing e n => some (bs " event:" ++ e ++ bs " time:" ++ nanosText n)
  | .gauge e v => some (bs " event:" ++ e ++ bs " gauge:" ++ fmtG v)
  | .complete st n => some (bs " status:" ++ st.str ++ bs " time:" ++ nanosText n)

/-- writer_sink.go:24-95: the five methods; they differ only in the middle part. -/
def emit (ns : Int) (job : Str) (p : Payload) (kvs : Option (GoMap Str Str)) : Option (List Str) :=
  (middle p).map (fun mid => [bs "[" ++ timestamp ns ++ bs "]: job:" ++ job ++ mid ++ kvsText kvs ++ bs "\n"])

end WriterSink

example : WriterSink.emit ((62135596800 + 1425167999) * 1000000000) (bs "j") (.timing (bs "e") 2000001) (some [(bs "b", bs "2"), (bs "a", bs "1")]) =
    some [bs "[2015-02-28T23:59:59Z]: job:j event:e time:2 ms kvs:[a:1 b:2]\n"] := by decide +kernel
example : fmtG (.fin 1234567) = bs "1.234567e+06" ∧ fmtG (.fin 100000) = bs "100000" ∧ fmtG (F64.rnd (1/10000)) = bs "0.0001" ∧
  fmtG (F64.rnd (-3/100000)) = bs "-3e-05" ∧ fmtG (.inf false) = bs "+Inf" := by decide +kernel

namespace JsonWriterSink

/-- `fmt.Sprint(err)` (json_writer_sink.go:36): nil prints as `<nil>`, and a panicking `Error()` is caught. -/
def sprintErr : GoErr → Str
  | .nil => bs "<nil>"
  | e => e.message.getD (bs "%!v(PANIC=Error method: runtime error: invalid memory address or nil pointer dereference)")

/-- a `map[string]string` as JSON: nil is null, otherwise an object with sorted keys (encoding/json `mapEncoder`). -/
def kvsJson (kvs : Option (GoMap Str Str)) : JVal :=
  match kvs with
  | none => .null
  | some m => .obj ((sortStrs m.keys).map (fun k => (k, .str ((m.get? k).getD []))))

/-- the anonymous structs of json_writer_sink.go:15-20, 30-36, 46-52, 62-68, 78-84. -/
def record (ns : Int) (job : Str) (p : Payload) (kvs : Option (GoMap Str Str)) : JVal :=
  match p with
  | .event e => .obj [(bs "Job", .str job), (bs "Event", .str e), (bs "Timestamp", .str (timestamp ns)), (bs "Kvs", kvsJson kvs)]
  | .eventErr e err => .obj [(bs "Job", .str job), (bs "Event", .str e), (bs "Timestamp", .str (timestamp ns)), (bs "Err", .str (sprintErr err)),
      (bs "Kvs", kvsJson kvs)]
  | .timing e n => .obj [(bs "Job", .str job), (bs "Event", .str e), (bs "Timestamp", .str (timestamp ns)), (bs "Nanoseconds", .int n),
      (bs "Kvs", kvsJson kvs)]
  | .gauge e v => .obj [(bs "Job", .str job), (bs "Event", .str e), (bs "Timestamp", .str (timestamp ns)), (bs "Value", .float v), (bs "Kvs", kvsJson kvs)]
  | .complete st n => .obj [(bs "Job", .str job), (bs "Status", .str st.str), (bs "Timestamp", .str (timestamp ns)), (bs "Nanoseconds", .int n),
      (bs "Kvs", kvsJson kvs)]

/-- json_writer_sink.go:13-90: one `Write` of the record, none if it cannot be marshalled. -/
def emit (ns : Int) (job : Str) (p : Payload) (kvs : Option (GoMap Str Str)) : List Str :=
  match (record ns job p kvs).marshal with
  | some b => [b]
  | none => []

end JsonWriterSink

example : JsonWriterSink.emit 0 (bs "j") (.gauge (bs "e") (.fin (1/2))) (some [(bs "b", bs "2"), (bs "a", bs "1")]) =
    [bs "{\"Job\":\"j\",\"Event\":\"e\",\"Timestamp\":\"0001-01-01T00:00:00Z\",\"Value\":0.5,\"Kvs\":{\"a\":\"1\",\"b\":\"2\"}}"] := by
  decide +kernel
