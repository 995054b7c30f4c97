import Verif.Model.Unmarshal
/-!
# healthd: polling, consuming, purging, recalculating
Models /repo/healthd/healthd.go and poll.go.  `none` = the goroutine panics (which ends the program).
Maps are `GoMap`s; where Go iterates over a map (in an order it chooses anew each time), the order is an argument.
Not modelled: healthd's own instrumentation (`hd.stream`), `fmt.Println`.
-/
namespace Healthd
open Unmarshal

/-- healthd.go:46-58. -/
structure HostStatus where
  hostPort : Str
  lastCheckTime : Time
  lastInstanceId : Str
  lastIntervalDuration : Int
  lastErr : Str
  lastNanos : Int
  lastCode : Int
  firstSuccessfulResponse : Time
  lastSuccessfulResponse : Time
deriving DecidableEq, Repr

/-- the zero `time.Time`. -/
def zeroTime : Time := ⟨0, 0⟩
/-- `Time.IsZero`. -/
def isZero (t : Time) : Bool := t.ns = 0

/-- healthd.go:60-64. -/
structure Key where
  time : Time
  instanceId : Str
  hostPort : Str
deriving DecidableEq, Repr

/-- healthd.go:12-44, the fields that are not channels. -/
structure State where
  intervalDuration : Int
  maxIntervals : Int
  intervalAggregations : List IntAgg
  hostAggregations : GoMap Key Report
  intervalsNeedingRecalculation : GoMap Time Unit
  hostStatus : GoMap Str HostStatus
deriving DecidableEq, Repr

/-- healthd.go:74 `hd.retain = time.Hour * 2`. -/
def retain : Int := 7200000000000

/-- healthd.go:81-83. -/
def newHost (hp : Str) : HostStatus := ⟨hp, zeroTime, [], 0, [], 0, 0, zeroTime, zeroTime⟩

/-- healthd.go:66-84. -/
def init (hostPorts : List Str) : State :=
  ⟨0, 0, [], [], [], hostPorts.foldl (fun m hp => m.set hp (newHost hp)) []⟩

/-! ## poll.go -/

/-- poll.go:11-20. -/
structure PollResponse where
  hostPort : Str
  timestamp : Time
  /-- `resp.Err.Error()`, `none` for nil -/
  err : Option Str
  code : Int
  nanos : Int
  response : Response
deriving DecidableEq, Repr

/-- what the HTTP client returns: an error, or a response with status code and body; reading the body may fail. -/
inductive HttpResult where
  | failed (err : Str)
  | answer (code : Int) (body : Str) (readErr : Option Str)
deriving DecidableEq, Repr

/-- poll.go:23-70.  `junk` is what `json.Unmarshal` leaves in the response when it fails, and `jsonErr` its error text. -/
def poll (localOffset : Int → Int) (fresh : Nat) (hostPort : Str) (timestamp : Time) (nanos : Int) (junk : Response) (jsonErr : Str) :
    HttpResult → PollResponse
  | .failed e => ⟨hostPort, timestamp, some e, 0, 0, ⟨[], 0, []⟩⟩
  | .answer code _ (some e) => ⟨hostPort, timestamp, some e, code, nanos, ⟨[], 0, []⟩⟩
  | .answer code body none =>
    match unmarshal localOffset fresh body with
    | none => ⟨hostPort, timestamp, some jsonErr, code, nanos, junk⟩
    | some r => ⟨hostPort, timestamp, none, code, nanos, r⟩

/-- poll.go:72-74. -/
def metricsUrl (hostPort : Str) : Str := bs "http://" ++ hostPort ++ bs "/health"

/-! ## consumePollResponse -/

/-- healthd.go:215-231; `now1`, `now2`: the clock at the two calls of `now()`. -/
def updateStatus (now1 now2 : Time) (r : PollResponse) (hs : HostStatus) : HostStatus :=
  let hs := { hs with
    lastCheckTime := r.timestamp
    lastNanos := r.nanos
    lastInstanceId := r.response.instanceId
    lastIntervalDuration := r.response.intervalDuration
    lastCode := r.code
    lastErr := match r.err with
      | none => []
      | some e => e }
  if r.code = 200 ∧ r.err = none then
    let hs := if isZero hs.firstSuccessfulResponse then { hs with firstSuccessfulResponse := now1 } else hs
    { hs with lastSuccessfulResponse := now2 }
  else hs

/-- healthd.go:247-261: one iteration of the loop; a nil `intAgg` is dereferenced. -/
def storeOne (r : PollResponse) (s : State) : Option Report → Option State
  | none => none
  | some rep =>
    let key : Key := ⟨rep.agg.start, r.response.instanceId, r.hostPort⟩
    let store : State := { s with
      hostAggregations := s.hostAggregations.set key rep
      intervalsNeedingRecalculation := s.intervalsNeedingRecalculation.set rep.agg.start () }
    match s.hostAggregations.get? key with
    | none => some store
    | some existing => if existing.agg.serial = rep.agg.serial then some s else some store

/-- healthd.go:247-261. -/
def storeAll (r : PollResponse) (s : State) (reps : List (Option Report)) : Option State := reps.foldlM (storeOne r) s

/-- healthd.go:213-263 `consumePollResponse`. -/
def consumePollResponse (now1 now2 : Time) (s : State) (r : PollResponse) : Option State :=
  let s := match s.hostStatus.get? r.hostPort with
    | some hs => { s with hostStatus := s.hostStatus.set r.hostPort (updateStatus now1 now2 r hs) }
    | none => s
  if r.code = 200 ∧ r.err = none then
    if s.intervalDuration = 0 then
      -- integer division by zero panics
      if r.response.intervalDuration = 0 then none
      else storeAll r { s with intervalDuration := r.response.intervalDuration, maxIntervals := Int.tdiv retain r.response.intervalDuration }
        r.response.aggs
    else if s.intervalDuration ≠ r.response.intervalDuration then some s
    else storeAll r s r.response.aggs
  else some s

/-! ## purge -/

/-- time.go `Time.Sub`: the difference, saturated to an int64 (`time.Since(t)` is `time.Now().Sub(t)`). -/
def subTime (t u : Time) : Int :=
  let d := t.ns - u.ns
  if d < -2 ^ 63 then -2 ^ 63 else if d > 2 ^ 63 - 1 then 2 ^ 63 - 1 else d

/-- healthd.go:274-277, 325-328: keep the last `maxIntervals`; a negative `maxIntervals` makes the slice expression panic. -/
def truncateAggs (maxIntervals : Int) (l : List IntAgg) : Option (List IntAgg) :=
  if (l.length : Int) > maxIntervals then
    if (l.length : Int) - maxIntervals > l.length then none
    else some (l.drop ((l.length : Int) - maxIntervals).toNat)
  else some l

/-- healthd.go:266-278 `purge`; `now k`: the clock when the loop looks at `k`. -/
def purge (now : Key → Time) (s : State) : Option State := do
  let threshold := i64 (s.intervalDuration * 5)
  let l ← truncateAggs s.maxIntervals s.intervalAggregations
  return { s with
    hostAggregations := s.hostAggregations.filter (fun p => ¬ subTime (now p.1) p.1.time > threshold)
    intervalAggregations := l }

/-! ## recalculateIntervals -/

/-- healthd.go:313-318: replace the aggregation with the same start, if there is one. -/
def replaceAgg (l : List IntAgg) (a : IntAgg) : Option (List IntAgg) :=
  match l with
  | [] => none
  | x :: t => if x.start = a.start then some (a :: t) else (replaceAgg t a).map (x :: ·)

/-- healthd.go:311-329 `setAggregation`; `sort` is `sort.Sort(ByInterval(...))`. -/
def setAggregation (sort : List IntAgg → List IntAgg) (s : State) (a : IntAgg) : Option State :=
  match replaceAgg s.intervalAggregations a with
  | some l => some { s with intervalAggregations := l }
  | none => (truncateAggs s.maxIntervals (sort (s.intervalAggregations ++ [a]))).map (fun l => { s with intervalAggregations := l })

/-- interval_aggregation_merge.go:5-17 applied to a decoded aggregation: a nil pointer in one of its maps is dereferenced. -/
def mergeReport (a : IntAgg) (r : Report) : Option IntAgg := if r.hasNil then none else some (a.merge r.agg)

/-- healthd.go:284-296, `entries`: the host aggregations in the order of the iteration. -/
def recalculateOne (sort : List IntAgg → List IntAgg) (entries : Time → List (Key × Report)) (s : State) (k : Time) : Option State := do
  let intAggsAtTime := ((entries k).filter (fun p => p.1.time = k)).map (·.2)
  let overallAgg ← intAggsAtTime.foldlM mergeReport (IntAgg.new k)
  setAggregation sort s overallAgg

/-- healthd.go:280-303 `recalculateIntervals`; `ks`: the intervals needing recalculation in the order of the iteration. -/
def recalculateIntervals (sort : List IntAgg → List IntAgg) (ks : List Time) (entries : Time → List (Key × Report)) (s : State) : Option State := do
  let s ← ks.foldlM (recalculateOne sort entries) s
  return { s with intervalsNeedingRecalculation := [] }

/-- healthd.go:192-200. -/
def memorySafeIntervals (s : State) : List IntAgg := s.intervalAggregations.map IntAgg.clone
/-- healthd.go:202-211. -/
def memorySafeHosts (order : List (Str × HostStatus)) : List HostStatus := order.map (·.2)

/-! ## The aggregation goroutine (healthd.go:133-154): one call after the other -/

/-- what the loop does in one iteration. -/
inductive Op where
  /-- a response arrives -/
  | response (r : PollResponse) (now1 now2 : Time)
  /-- the ticker ticks -/
  | purge (now : Key → Time)
  /-- nil arrives or the debouncer fires; `ks`, `entries`: the iteration orders -/
  | recalculate (ks : List Time) (entries : Time → List (Key × Report))

/-- Go may iterate in any order. -/
def Op.Valid (s : State) : Op → Prop
  | .recalculate ks entries => ks.Perm s.intervalsNeedingRecalculation.keys ∧ ∀ k, (entries k).Perm s.hostAggregations
  | _ => True

def step (sort : List IntAgg → List IntAgg) (s : State) : Op → Option State
  | .response r now1 now2 => consumePollResponse now1 now2 s r
  | .purge now => Healthd.purge now s
  | .recalculate ks entries => recalculateIntervals sort ks entries s

/-- the loop, from state `s` over `ops` to a state, without panic. -/
inductive Runs (sort : List IntAgg → List IntAgg) (s : State) : List Op → State → Prop where
  | nil : Runs sort s [] s
  | snoc {ops : List Op} {s1 s2 : State} {op : Op} : Runs sort s ops s1 → op.Valid s1 → step sort s1 op = some s2 → Runs sort s (ops ++ [op]) s2

/-- what `sort.Sort(ByInterval(l))` (healthd.go:305-309, 322) guarantees. -/
def SortsByStart (sort : List IntAgg → List IntAgg) : Prop :=
  ∀ l, (sort l).Perm l ∧ (sort l).Pairwise (fun a b => ¬ b.start.ns < a.start.ns)

end Healthd
