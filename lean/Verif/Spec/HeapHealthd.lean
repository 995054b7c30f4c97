import Verif.Model.HeapHealthd
/-!
# What the aggregation goroutine of healthd holds in memory
-/
namespace Spec.Memory
open Mem

/-- the pointers of the goroutine. -/
def own (s : Hd) (x : Addr) : Prop := x = s.arr ∨ ∃ p ∈ s.hostAggs, x = p.2.addr

/-- a reader who follows the pointers of the goroutine sees the state `v`. -/
structure Reads (s : Hd) (v : Healthd.State) : Prop where
  duration : s.intervalDuration = v.intervalDuration
  max : s.maxIntervals = v.maxIntervals
  aggs : readSlice s.heap s.arr = some v.intervalAggregations
  hosts : s.hostAggs.mapM (fun p => (readInt s.heap p.2.addr).map fun a => (p.1, (⟨a, p.2.hasNil⟩ : Unmarshal.Report))) = some v.hostAggregations
  needing : s.needing = v.intervalsNeedingRecalculation
  status : s.hostStatus = v.hostStatus

/-- an execution in which request `n` does nothing by itself. -/
inductive Without (perm : List Int → List Nat) (n : Nat) : Sys → Sys → Prop where
  | done {s : Sys} : Without perm n s s
  | loop {s s' : Sys} {op : HdOp} {hd' : Hd} : Without perm n s s' → op.Valid s'.hd → s'.hd.step perm op = some hd' → Without perm n s { s' with hd := hd' }
  | answer {s s' : Sys} {m : Nat} {snap : Addr} {hd' : Hd} : Without perm n s s' → s'.hd.memorySafeIntervals = some (snap, hd') →
      Without perm n s ⟨hd', fun k x => s'.held k x ∨ (k = m ∧ x = snap)⟩
  | api {s s' : Sys} {m : Nat} {h' : Heap} {K' : Addr → Prop} : Without perm n s s' → m ≠ n → Client s'.hd.heap (s'.held m) h' K' →
      Without perm n s ⟨{ s'.hd with heap := h' }, fun k => if k = m then K' else s'.held k⟩

end Spec.Memory
