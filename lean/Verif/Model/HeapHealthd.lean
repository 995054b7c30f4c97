import Verif.Model.Heap
import Verif.Model.Healthd
import Verif.Spec.Heap
/-!
# healthd in memory
The aggregation goroutine of healthd (/repo/healthd/healthd.go) with its aggregations as objects in memory (`Verif/Model/Heap.lean`), together with
the requests of the API, each of which is any code whatever that holds pointers to what it was given and to what it made itself.

Objects: the aggregations decoded from responses, the aggregations made by `recalculateIntervals`, the array behind `hd.intervalAggregations`, the
copies handed out.  Not objects: the two maps `hostAggregations` and `intervalsNeedingRecalculation` and the host statuses (`memorySafeHosts` copies
these flat structures by value, healthd.go:206); no pointer to them is ever given away.

Simplified: decoding a response (in the goroutine of the poller, which keeps no pointer to it) and consuming it are one step; a re-sliced or grown
slice keeps its array, so that all writes to it are to the same object; a nil pointer inside a decoded aggregation is a mark beside the pointer to
the aggregation, as in `Healthd.Report`.
-/
namespace Mem
open Unmarshal

/-! ## Decoding: `json.Unmarshal` makes all objects anew (poll.go:56) -/

/-- `map[string]*T`. -/
def allocRefs {V : Type} (make : V → Cmd Addr) : GoMap Str V → Cmd (GoMap Str Addr)
  | [] => pure []
  | (k, v) :: t => do
    let a ← make v
    let m ← allocRefs make t
    pure ((k, a) :: m)

/-- interval_aggregation.go:25-30 `aggregationMaps`. -/
def allocMaps (m : AggMaps) : Cmd Maps := do
  let timers ← allocRefs (fun t => alloc (.timer t)) m.timers
  let timers ← alloc (.refs timers)
  let gauges ← alloc (.floats m.gauges)
  let events ← alloc (.ints m.events)
  let errs ← allocRefs (fun e => alloc (.errs e)) m.eventErrs
  let errs ← alloc (.refs errs)
  pure ⟨timers, gauges, events, errs⟩

/-- interval_aggregation.go:32-41 `JobAggregation`. -/
def allocJob (j : JobAgg) : Cmd Addr := do
  let ms ← allocMaps j.maps
  alloc (.job ms j.timer (countsOf j))

/-- interval_aggregation.go:9-23 `IntervalAggregation`. -/
def allocInt (v : IntAgg) : Cmd Addr := do
  let ms ← allocMaps v.maps
  let jobs ← allocRefs allocJob v.jobs
  let jobs ← alloc (.refs jobs)
  alloc (.int v.start v.serial jobs ms)

/-- a pointer to a decoded aggregation; the mark says that one of its maps contains a nil pointer. -/
structure Ptr where
  addr : Addr
  hasNil : Bool
deriving DecidableEq, Repr

/-- the aggregations of a response, `none` for nil. -/
def decode : List (Option Report) → Cmd (List (Option Ptr))
  | [] => pure []
  | none :: t => do
    let l ← decode t
    pure (none :: l)
  | some r :: t => do
    let a ← allocInt r.agg
    let l ← decode t
    pure (some ⟨a, r.hasNil⟩ :: l)

/-! ## The aggregation goroutine -/

/-- healthd.go:12-44; `arr`: the array behind `intervalAggregations`. -/
structure Hd where
  heap : Heap
  intervalDuration : Int
  maxIntervals : Int
  arr : Addr
  hostAggs : GoMap Healthd.Key Ptr
  needing : GoMap Time Unit
  hostStatus : GoMap Str Healthd.HostStatus
deriving DecidableEq, Repr

/-- healthd.go:66-84. -/
def Hd.init (hostPorts : List Str) : Hd :=
  ⟨⟨[.array []], []⟩, 0, 0, 0, [], [], (Healthd.init hostPorts).hostStatus⟩

/-- healthd.go:247-261: one iteration of the loop over the aggregations of a response. -/
def Hd.storeOne (r : Healthd.PollResponse) (s : Hd) : Option Ptr → Option Hd
  | none => none
  | some p => do
    let ((start, serial, _, _), _) ← loadInt p.addr s.heap
    let key : Healthd.Key := ⟨start, r.response.instanceId, r.hostPort⟩
    let store : Hd := { s with hostAggs := s.hostAggs.set key p, needing := s.needing.set start () }
    match s.hostAggs.get? key with
    | none => some store
    | some existing => do
      let ((_, n, _, _), _) ← loadInt existing.addr s.heap
      if n = serial then some s else some store

/-- healthd.go:247-261. -/
def Hd.storeAll (r : Healthd.PollResponse) (s : Hd) : Option Hd := do
  let (ps, h) ← decode r.response.aggs s.heap
  ps.foldlM (Hd.storeOne r) { s with heap := h }

/-- healthd.go:213-263 `consumePollResponse`. -/
def Hd.consumePollResponse (now1 now2 : Time) (s : Hd) (r : Healthd.PollResponse) : Option Hd :=
  let s := match s.hostStatus.get? r.hostPort with
    | some hs => { s with hostStatus := s.hostStatus.set r.hostPort (Healthd.updateStatus now1 now2 r hs) }
    | none => s
  if r.code = 200 ∧ r.err = none then
    if s.intervalDuration = 0 then
      if r.response.intervalDuration = 0 then none
      else Hd.storeAll r { s with intervalDuration := r.response.intervalDuration, maxIntervals := Int.tdiv Healthd.retain r.response.intervalDuration }
    else if s.intervalDuration ≠ r.response.intervalDuration then some s
    else Hd.storeAll r s
  else some s

/-- healthd.go:274-277, 325-328. -/
def truncatePtrs (maxIntervals : Int) (l : List Addr) : Option (List Addr) :=
  if (l.length : Int) > maxIntervals then
    if (l.length : Int) - maxIntervals > l.length then none
    else some (l.drop ((l.length : Int) - maxIntervals).toNat)
  else some l

/-- a partial function as code. -/
def ofOption {α : Type} : Option α → Cmd α
  | none => fail
  | some a => pure a

/-- healthd.go:266-278 `purge`; `now k`: the clock when the loop looks at `k`. -/
def Hd.purge (now : Healthd.Key → Time) (s : Hd) : Option Hd := do
  let threshold := i64 (s.intervalDuration * 5)
  let (_, h) ← (do let l ← loadArray s.arr; let l ← ofOption (truncatePtrs s.maxIntervals l); store s.arr (.array l) : Cmd Unit) s.heap
  return { s with heap := h, hostAggs := s.hostAggs.filter (fun p => ¬ Healthd.subTime (now p.1) p.1.time > threshold) }

/-- healthd.go:313-318: the array with the aggregation with the same start replaced, if there is one. -/
def replacePtr (a : Addr) (t : Time) : List Addr → Cmd (Option (List Addr))
  | [] => pure none
  | x :: l => do
    let (start, _, _, _) ← loadInt x
    if start = t then pure (some (a :: l))
    else do
      let l' ← replacePtr a t l
      pure (l'.map (x :: ·))

/-- the starts of the aggregations, all that `ByInterval.Less` looks at (healthd.go:309). -/
def starts : List Addr → Cmd (List Int)
  | [] => pure []
  | x :: l => do
    let (start, _, _, _) ← loadInt x
    let t ← starts l
    pure (start.ns :: t)

/-- `sort.Sort`, whatever it does: from the keys it finds the places, from which the elements go to the front one after the other. -/
def sortBy {α : Type} (perm : List Int → List Nat) (ks : List Int) (l : List α) : List α := (perm ks).filterMap (l[·]?)

/-- healthd.go:311-329 `setAggregation`. -/
def setAggregation (perm : List Int → List Nat) (maxIntervals : Int) (arr a : Addr) : Cmd Unit := do
  let l ← loadArray arr
  let (t, _, _, _) ← loadInt a
  match ← replacePtr a t l with
  | some l' => store arr (.array l')
  | none => do
    let ks ← starts (l ++ [a])
    let l' ← ofOption (truncatePtrs maxIntervals (sortBy perm ks (l ++ [a])))
    store arr (.array l')

/-- healthd.go:292: merging an aggregation with a nil pointer in one of its maps panics. -/
def mergePtr (overall : Addr) (p : Ptr) : Cmd Unit := if p.hasNil then fail else mergeInt overall p.addr

/-- healthd.go:284-296, `entries`: the host aggregations in the order of the iteration. -/
def Hd.recalculateOne (perm : List Int → List Nat) (entries : Time → List (Healthd.Key × Ptr)) (s : Hd) (k : Time) : Option Hd := do
  let (_, h) ← (do
    let overall ← newInt k
    forEach (((entries k).filter (fun p => p.1.time = k)).map (·.2)) (mergePtr overall)
    setAggregation perm s.maxIntervals s.arr overall : Cmd Unit) s.heap
  return { s with heap := h }

/-- healthd.go:280-303 `recalculateIntervals`. -/
def Hd.recalculateIntervals (perm : List Int → List Nat) (ks : List Time) (entries : Time → List (Healthd.Key × Ptr)) (s : Hd) : Option Hd := do
  let s ← ks.foldlM (Hd.recalculateOne perm entries) s
  return { s with needing := [] }

/-- healthd.go:195-197. -/
def cloneAll : List Addr → Cmd (List Addr)
  | [] => pure []
  | a :: t => do
    let c ← cloneInt a
    let l ← cloneAll t
    pure (c :: l)

/-- healthd.go:192-200 `memorySafeIntervals`: the array behind the slice returned. -/
def Hd.memorySafeIntervals (s : Hd) : Option (Addr × Hd) := do
  let (r, h) ← (do let l ← loadArray s.arr; let out ← cloneAll l; alloc (.array out) : Cmd Addr) s.heap
  return (r, { s with heap := h })

/-- what the goroutine does in one iteration (healthd.go:133-154), apart from answering requests. -/
inductive HdOp where
  | response (r : Healthd.PollResponse) (now1 now2 : Time)
  | purge (now : Healthd.Key → Time)
  | recalculate (ks : List Time) (entries : Time → List (Healthd.Key × Ptr))

/-- Go may iterate in any order. -/
def HdOp.Valid (s : Hd) : HdOp → Prop
  | .recalculate ks entries => ks.Perm s.needing.keys ∧ ∀ k, (entries k).Perm s.hostAggs
  | _ => True

def Hd.step (perm : List Int → List Nat) (s : Hd) : HdOp → Option Hd
  | .response r now1 now2 => s.consumePollResponse now1 now2 r
  | .purge now => Hd.purge now s
  | .recalculate ks entries => s.recalculateIntervals perm ks entries

/-! ## Together with the API -/

/-- the goroutine, and the pointers that the requests hold; request `n` has the pointers `held n`. -/
structure Sys where
  hd : Hd
  held : Nat → Addr → Prop

inductive Sys.Step (perm : List Int → List Nat) : Sys → Sys → Prop where
  /-- the goroutine works -/
  | loop {s : Sys} {op : HdOp} {hd' : Hd} : op.Valid s.hd → s.hd.step perm op = some hd' → Step perm s { s with hd := hd' }
  /-- it answers request `n` (healthd.go:149-150, 174-181) -/
  | answer {s : Sys} {n : Nat} {snap : Addr} {hd' : Hd} : s.hd.memorySafeIntervals = some (snap, hd') →
      Step perm s ⟨hd', fun m x => s.held m x ∨ (m = n ∧ x = snap)⟩
  /-- request `n` does anything it can -/
  | api {s : Sys} {n : Nat} {h' : Heap} {K' : Addr → Prop} : Spec.Memory.Client s.hd.heap (s.held n) h' K' →
      Step perm s ⟨{ s.hd with heap := h' }, fun m => if m = n then K' else s.held m⟩

/-- any execution of healthd. -/
inductive Sys.Reachable (perm : List Int → List Nat) (hostPorts : List Str) : Sys → Prop where
  | init : Reachable perm hostPorts ⟨Hd.init hostPorts, fun _ _ => False⟩
  | step {s s' : Sys} : Reachable perm hostPorts s → Sys.Step perm s s' → Reachable perm hostPorts s'

end Mem
