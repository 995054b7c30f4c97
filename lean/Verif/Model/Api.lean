import Verif.Model.Healthd
import Verif.Model.Metrics
import Verif.Model.Stream
/-!
# healthd's HTTP API
Models /repo/healthd/api.go.  Not modelled: the router of gocraft/web (an `Endpoint` says which handler it chose) and the parsing of the query string
(`sort` and `limit` are the values `r.URL.Query().Get` returns).
-/
namespace Api
open Healthd

/-- api.go:17-32 `Job`. -/
structure Row where
  name : Str
  count : Int
  countSuccess : Int
  countValidationError : Int
  countPanic : Int
  countError : Int
  countJunk : Int
  nanosSum : Int
  nanosSumSquares : F64
  nanosMin : Int
  nanosMax : Int
  nanosAvg : F64
  nanosStdDev : F64
deriving DecidableEq, Repr

/-- api.go:201-211 `combineAggregations`; `none` = nil. -/
def combineAggregations (aggregations : List IntAgg) : Option IntAgg :=
  match aggregations with
  | [] => none
  | a :: _ => some (aggregations.foldl IntAgg.merge (IntAgg.new a.start))

/-- strconv/atoi.go `ParseInt(s, 10, 0)` on a 64-bit platform; `none` = error (syntax or range). -/
def parseInt (s : Str) : Option Int :=
  let digits (t : Str) : Option Nat := if t ≠ [] ∧ t.all (fun c => decide (48 ≤ c) && decide (c ≤ 57)) then
    some (t.foldl (fun n c => 10 * n + (c.toNat - 48)) 0) else none
  let v : Option Int := match s with
    | 45 :: t => (digits t).map (fun n : Nat => -(n : Int))
    | 43 :: t => (digits t).map (fun n : Nat => (n : Int))
    | t => (digits t).map (fun n : Nat => (n : Int))
  match v with
  | some n => if -2 ^ 63 ≤ n ∧ n < 2 ^ 63 then some n else none
  | none => none

/-- api.go:217-228 `getLimit`. -/
def getLimit (limit : Str) : Int :=
  if limit = [] then 0
  else match parseInt limit with
    | none => 0
    | some n => n

/-- Go's `<` on strings. -/
def strLt (a b : Str) : Bool := !strLe b a

/-- api.go:263-300 `jobSorters`. -/
def jobSorter (key : Str) : Option (Row → Row → Bool) :=
  if key = bs "name" then some (fun j1 j2 => strLt j1.name j2.name)
  else if key = bs "count" then some (fun j1 j2 => j1.count > j2.count)
  else if key = bs "count_success" then some (fun j1 j2 => j1.countSuccess > j2.countSuccess)
  else if key = bs "count_validation_error" then some (fun j1 j2 => j1.countValidationError > j2.countValidationError)
  else if key = bs "count_panic" then some (fun j1 j2 => j1.countPanic > j2.countPanic)
  else if key = bs "count_error" then some (fun j1 j2 => j1.countError > j2.countError)
  else if key = bs "count_junk" then some (fun j1 j2 => j1.countJunk > j2.countJunk)
  else if key = bs "total_time" then some (fun j1 j2 => j1.nanosSum > j2.nanosSum)
  else if key = bs "avg" then some (fun j1 j2 => F64.lt j2.nanosAvg j1.nanosAvg)
  else if key = bs "min" then some (fun j1 j2 => j1.nanosMin > j2.nanosMin)
  else if key = bs "max" then some (fun j1 j2 => j1.nanosMax > j2.nanosMax)
  else if key = bs "stddev" then some (fun j1 j2 => F64.lt j2.nanosStdDev j1.nanosStdDev)
  else none

/-- `sort.Sort` for a type with the given `Less`: the algorithm is an argument, see `GoSorts`. -/
abbrev SortFn (α : Type) := (α → α → Bool) → List α → List α

/-- what package sort guarantees of `sort.Sort`: a permutation, and in order if `less` is a strict weak order on the elements (and nothing
about the order of equal elements, nor about the order at all otherwise). -/
def GoSorts {α : Type} (sort : SortFn α) : Prop :=
  ∀ less l, (sort less l).Perm l ∧
    ((∀ a ∈ l, ∀ b ∈ l, less a b = true → less b a = false) → (∀ a ∈ l, ∀ b ∈ l, ∀ c ∈ l, less b a = false → less c b = false → less c a = false) →
      (sort less l).Pairwise (fun a b => less b a = false))

/-- api.go:302-306 `sortJobs`. -/
def sortJobs (sort : SortFn Row) (jobs : List Row) (key : Str) : List Row :=
  match jobSorter key with
  | some less => sort less jobs
  | none => jobs

/-- api.go:315-328: the average; `float64(0)` for no samples. -/
def average (t : TimerAgg) : F64 := if t.count = 0 then .fin 0 else F64.div (.ofInt t.nanosSum) (.ofInt t.count)

/-- api.go:315-328: the standard deviation.  `math.Pow(x, 2)` (math/pow.go) squares the mantissa, rounding once, and shifts by the exponent: as `x * x`
for numbers of this size. `j.Count * (j.Count - 1)` is a product of int64. -/
def stdDev (t : TimerAgg) : F64 :=
  if t.count = 0 then .fin 0
  else if t.count = 1 then .fin 0
  else
    let num := F64.sub (F64.mul (.ofInt t.count) t.nanosSumSquares) (F64.mul (.ofInt t.nanosSum) (.ofInt t.nanosSum))
    let div := F64.ofInt (i64 (t.count * i64 (t.count - 1)))
    F64.sqrt (F64.div num div)

/-- api.go:329-343. -/
def mkJob (k : Str) (j : JobAgg) : Row :=
  { name := k
    count := j.timer.count
    countSuccess := j.countSuccess
    countValidationError := j.countValidationError
    countPanic := j.countPanic
    countError := j.countError
    countJunk := j.countJunk
    nanosSum := j.timer.nanosSum
    nanosSumSquares := j.timer.nanosSumSquares
    nanosMin := j.timer.nanosMin
    nanosMax := j.timer.nanosMax
    nanosAvg := average j.timer
    nanosStdDev := stdDev j.timer }

/-- api.go:349-355. -/
def applyLimit (jobs : List Row) (limit : Int) : List Row :=
  if limit > 0 then
    let limit := if limit > jobs.length then (jobs.length : Int) else limit
    jobs.take limit.toNat
  else jobs

/-- api.go:308-358 `filterJobs`; `order`: the jobs of `overall` in the order of the iteration (`none`: `overall` is nil). -/
def filterJobs (sort : SortFn Row) (order : Option (List (Str × JobAgg))) (key : Str) (limit : Int) : Option (List Row) :=
  order.map (fun l => applyLimit (sortJobs sort (l.map (fun p => mkJob p.1 p.2)) key) limit)

/-- api.go:167, 360-364. -/
def sortHosts (sort : SortFn HostStatus) (hosts : List HostStatus) : List HostStatus := sort (fun a b => strLt a.hostPort b.hostPort) hosts

/-! ## Rendering -/

/-- api.go:17-32, the struct tags. -/
def Row.toJson (j : Row) : JVal :=
  .obj [(bs "name", .str j.name), (bs "count", .int j.count), (bs "count_success", .int j.countSuccess), (bs "count_validation_error", .int j.countValidationError),
    (bs "count_panic", .int j.countPanic), (bs "count_error", .int j.countError), (bs "count_junk", .int j.countJunk), (bs "nanos_sum", .int j.nanosSum),
    (bs "nanos_sum_squares", .float j.nanosSumSquares), (bs "nanos_min", .int j.nanosMin), (bs "nanos_max", .int j.nanosMax), (bs "nanos_avg", .float j.nanosAvg),
    (bs "nanos_std_dev", .float j.nanosStdDev)]

/-- a value or the error of the first part that cannot be encoded. -/
def encodeVal (v : JVal) : Except Str JVal :=
  match v.firstBad with
  | some e => .error e
  | none => .ok v

/-- a list of values; the first error counts. -/
def encodeAll {α : Type} (f : α → Except Str JVal) : List α → Except Str (List JVal)
  | [] => .ok []
  | x :: t => do
    let j ← f x
    let js ← encodeAll f t
    return j :: js

/-- a `time.Time` (`Time.MarshalJSON`). -/
def encodeTime (zone : Nat → Int → Int) (t : Time) : Except Str JVal :=
  match timeJSON t.ns (zone t.loc t.ns) with
  | none => .error timeErrText
  | some s => .ok (.str s)

/-- healthd.go:46-58, the struct tags. -/
def encodeHost (zone : Nat → Int → Int) (h : HostStatus) : Except Str JVal := do
  let lastCheckTime ← encodeTime zone h.lastCheckTime
  let first ← encodeTime zone h.firstSuccessfulResponse
  let last ← encodeTime zone h.lastSuccessfulResponse
  return .obj [(bs "host_port", .str h.hostPort), (bs "last_check_time", lastCheckTime), (bs "last_instance_id", .str h.lastInstanceId),
    (bs "last_interval_duration", .int h.lastIntervalDuration), (bs "last_err", .str h.lastErr), (bs "last_nanos", .int h.lastNanos),
    (bs "last_code", .int h.lastCode), (bs "first_successful_response", first), (bs "last_successful_response", last)]

/-- a slice of things: null for a nil slice. -/
def encodeSlice {α : Type} (f : α → Except Str JVal) : Option (List α) → Except Str JVal
  | none => .ok .null
  | some l => (encodeAll f l).map .arr

/-- api.go:34-57: the fields of the embedded `apiResponse`, then the field of the response. -/
def apiResponse (identifier : Str) (intervalDuration : Int) (field : Str) (v : JVal) : JVal :=
  .obj [(bs "instance_id", .str identifier), (bs "interval_duration", .int intervalDuration), (field, v)]

/-- api.go:182-189 `renderJson` of such a response (the status is 200 when a handler sets none). -/
def renderJson (identifier : Str) (intervalDuration : Int) (field : Str) (v : Except Str JVal) : HttpResp :=
  match v with
  | .error e => renderError e
  | .ok v => ⟨200, jsonType, Fprintf.sprintf ((apiResponse identifier intervalDuration field v).enc (JVal.indented [9]) 0)⟩

/-! ## Handlers -/

/-- which handler the router (api.go:64-85) calls. -/
inductive Endpoint where
  | aggregations
  | overall
  | jobs
  | hosts
  | notFound
deriving DecidableEq, Repr

/-- the `RoutePath` of an endpoint. -/
def Endpoint.path : Endpoint → Str
  | .aggregations => bs "/healthd/aggregations"
  | .overall => bs "/healthd/aggregations/overall"
  | .jobs => bs "/healthd/jobs"
  | .hosts => bs "/healthd/hosts"
  | .notFound => []

/-- what the handlers see: the results of `getAggregationSequence` and `getHosts` (`none` = nil, after `Stop`) and `hd.intervalDuration`. -/
structure View where
  aggregations : Option (List IntAgg)
  hosts : Option (List HostStatus)
  intervalDuration : Int

/-- what Go leaves open: the sorting algorithm and the order in which the map of jobs is iterated. -/
structure Choices where
  sortJobs : SortFn Row
  sortHosts : SortFn HostStatus
  order : GoMap Str JobAgg → List (Str × JobAgg)

structure Choices.Ok (c : Choices) : Prop where
  sortJobs : GoSorts c.sortJobs
  sortHosts : GoSorts c.sortHosts
  order : ∀ m, (c.order m).Perm m

/-- api.go:133-173, 191-194: the handlers.  (`SetContentType` is not called for unknown paths: the handler leaves the type open there, `[]`.) -/
def respond (c : Choices) (identifier : Str) (zone : Nat → Int → Int) (v : View) (sort limit : Str) : Endpoint → HttpResp
  | .aggregations => renderJson identifier v.intervalDuration (bs "aggregations") (encodeSlice (IntAgg.encode zone) v.aggregations)
  | .overall => renderJson identifier v.intervalDuration (bs "overall") (match combineAggregations (v.aggregations.getD []) with
      | none => .ok .null
      | some a => a.encode zone)
  | .jobs => renderJson identifier v.intervalDuration (bs "jobs") (encodeSlice (fun j => encodeVal j.toJson)
      (filterJobs c.sortJobs ((combineAggregations (v.aggregations.getD [])).map (fun a => c.order a.jobs)) sort (getLimit limit)))
  | .hosts => renderJson identifier v.intervalDuration (bs "hosts") (encodeSlice (encodeHost zone) (v.hosts.map (sortHosts c.sortHosts)))
  | .notFound => { renderNotFound with contentType := [] }

/-- api.go:116-129: the completion status for a response code. -/
def completionStatus (code : Int) : Status :=
  if code < 400 then .success
  else if code = 422 then .validationError
  else if code < 500 then .junk
  else .error

/-- api.go:102-131 `HealthMiddleware`: what is emitted to healthd's own sinks for a request, in order: job, payload, key/values. `path`: the path of
the URL; `nanos`: the duration measured. Requests that the router does not know do not pass here. -/
def emissions (path : Str) (nanos : Int) (e : Endpoint) (r : HttpResp) : List (Str × Payload × GoMap Str Str) :=
  match e with
  | .notFound => []
  | e => [(e.path, .event (bs "starting_request"), [(bs "path", path)]),
      (e.path, .complete (completionStatus r.code) nanos, [(bs "code", intStr r.code), (bs "path", path)])]

end Api
