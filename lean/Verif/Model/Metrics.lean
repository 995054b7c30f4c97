import Verif.Model.Aggregator
import Verif.Model.Writer
import Verif.Model.Fprintf
/-!
# The metrics JSON and the /health endpoint
Models /repo/json_polling_sink_http.go and the JSON encoding (struct tags) of /repo/interval_aggregation.go.
-/

/-- a Go map with string keys as a JSON object: keys in byte order (encoding/json `mapEncoder`). -/
def mapJson {V : Type} (f : V → JVal) (m : GoMap Str V) : JVal :=
  .obj ((sortStrs m.keys).filterMap (fun k => (m.get? k).map (fun v => (k, f v))))

/-- interval_aggregation.go:43-49. -/
def TimerAgg.fields (t : TimerAgg) : List (Str × JVal) :=
  [(bs "count", .int t.count), (bs "nanos_sum", .int t.nanosSum), (bs "nanos_sum_squares", .float t.nanosSumSquares),
   (bs "nanos_min", .int t.nanosMin), (bs "nanos_max", .int t.nanosMax)]

/-- interval_aggregation.go:51-57: only `Count` is exported. -/
def ErrorCounter.toJson (ec : ErrorCounter) : JVal := .obj [(bs "count", .int ec.count)]

/-- interval_aggregation.go:25-30, embedded in the structs below. -/
def AggMaps.fields (am : AggMaps) : List (Str × JVal) :=
  [(bs "timers", mapJson (fun t => .obj t.fields) am.timers), (bs "gauges", mapJson .float am.gauges), (bs "events", mapJson .int am.events),
   (bs "event_errs", mapJson ErrorCounter.toJson am.eventErrs)]

/-- interval_aggregation.go:32-41. -/
def JobAgg.toJson (j : JobAgg) : JVal :=
  .obj (j.maps.fields ++ j.timer.fields ++
    [(bs "count_success", .int j.countSuccess), (bs "count_validation_error", .int j.countValidationError), (bs "count_panic", .int j.countPanic),
     (bs "count_error", .int j.countError), (bs "count_junk", .int j.countJunk)])

/-- interval_aggregation.go:9-23; `start` is the text of the start time. -/
def IntAgg.toJson (start : Str) (ia : IntAgg) : JVal :=
  .obj ([(bs "interval_start", .str start), (bs "serial_number", .int ia.serial), (bs "jobs", mapJson JobAgg.toJson ia.jobs)] ++ ia.maps.fields)

namespace JVal
/-- text of a value that JSON cannot represent (strconv `FormatFloat(f, 'g', -1, 64)`). -/
def badText : F64 → Option Str
  | .nan => some (bs "NaN")
  | .inf neg => some (if neg then bs "-Inf" else bs "+Inf")
  | _ => none
mutual
/-- encode.go: the error of the first value that cannot be encoded. -/
def firstBad : JVal → Option Str
  | .float v => (badText v).map (fun t => bs "json: unsupported value: " ++ t)
  | .arr xs => firstBadElems xs
  | .obj ms => firstBadMembers ms
  | _ => none
def firstBadElems : List JVal → Option Str
  | [] => none
  | x :: xs => (firstBad x).orElse (fun _ => firstBadElems xs)
def firstBadMembers : List (Str × JVal) → Option Str
  | [] => none
  | (_, v) :: ms => (firstBad v).orElse (fun _ => firstBadMembers ms)
end
end JVal

/-- the error of `Time.MarshalJSON`, wrapped by encoding/json. -/
def timeErrText : Str := bs "json: error calling MarshalJSON for type time.Time: Time.MarshalJSON: year outside of range [0,9999]"

/-- one interval aggregation encoded, or the error.  `zone` gives the UTC offset (seconds) of a location at an instant. -/
def IntAgg.encode (zone : Nat → Int → Int) (ia : IntAgg) : Except Str JVal :=
  match timeJSON ia.start.ns (zone ia.start.loc ia.start.ns) with
  | none => .error timeErrText
  | some s => match (ia.toJson s).firstBad with
    | some e => .error e
    | none => .ok (ia.toJson s)

/-- all of them; the first error counts. -/
def encodeAggs (zone : Nat → Int → Int) : List IntAgg → Except Str (List JVal)
  | [] => .ok []
  | ia :: t => do
    let j ← ia.encode zone
    let js ← encodeAggs zone t
    return j :: js

/-- json_polling_sink_http.go:10-14 `HealthAggregationsResponse`. -/
def responseJson (identifier : Str) (intervalDuration : Int) (aggs : List JVal) : JVal :=
  .obj [(bs "instance_id", .str identifier), (bs "interval_duration", .int intervalDuration), (bs "aggregations", .arr aggs)]

/-- what an HTTP handler has written. -/
structure HttpResp where
  code : Nat
  contentType : Str
  body : Str
deriving DecidableEq, Repr

def jsonType : Str := bs "application/json; charset=utf-8"

/-- json_polling_sink_http.go:40-43 `renderNotFound`. -/
def renderNotFound : HttpResp := ⟨404, jsonType, bs "{\"error\": \"not_found\"}"⟩
/-- json_polling_sink_http.go:45-48 `renderError`. -/
def renderError (err : Str) : HttpResp := ⟨500, jsonType, bs "{\"error\": \"" ++ err ++ bs "\"}"⟩

/-- json_polling_sink_http.go:20-38 `ServeHTTP`; `metrics` is the result of `GetMetrics`, `identifier` the process-wide
`Identifier` (identifier.go).  The body goes through `Fprintf` as a format. -/
def serveHTTP (path identifier : Str) (intervalDuration : Int) (zone : Nat → Int → Int) (metrics : List IntAgg) : HttpResp :=
  if path = bs "/health" then
    match encodeAggs zone metrics with
    | .error e => renderError e
    | .ok js => ⟨200, jsonType, Fprintf.sprintf ((responseJson identifier intervalDuration js).enc (JVal.indented [9]) 0)⟩
  else renderNotFound

example : serveHTTP (bs "/health") (bs "host.1") 60 (fun _ _ => 0) [⟨⟨0, 0⟩, 1, [], { AggMaps.init with events := [(bs "e", 1)] }⟩] =
  ⟨200, jsonType, bs "{\n\t\"instance_id\": \"host.1\",\n\t\"interval_duration\": 60,\n\t\"aggregations\": [\n\t\t{\n\t\t\t\"interval_start\": \"0001-01-01T00:00:00Z\",\n\t\t\t\"serial_number\": 1,\n\t\t\t\"jobs\": {},\n\t\t\t\"timers\": {},\n\t\t\t\"gauges\": {},\n\t\t\t\"events\": {\n\t\t\t\t\"e\": 1\n\t\t\t},\n\t\t\t\"event_errs\": {}\n\t\t}\n\t]\n}"⟩ := by
  decide +kernel
