import Verif.Lemmas.Healthd
import Mathlib.Data.List.Sort
/-!
# Running healthd's loop on concrete histories (for examples and counterexamples)
-/
open Spec Healthd Unmarshal

namespace Healthd

/-- a sorting function. -/
def sortAggs (l : List IntAgg) : List IntAgg := l.insertionSort (fun a b => a.start.ns ≤ b.start.ns)

theorem sortAggs_ok : SortsByStart sortAggs := by
  intro l
  refine ⟨List.perm_insertionSort _ l, ?_⟩
  have : Std.Total (fun a b : IntAgg => a.start.ns ≤ b.start.ns) := ⟨fun a b => by omega⟩
  have : IsTrans IntAgg (fun a b => a.start.ns ≤ b.start.ns) := ⟨fun a b c h1 h2 => by omega⟩
  exact (List.pairwise_insertionSort (fun a b : IntAgg => a.start.ns ≤ b.start.ns) l).imp (fun h => by omega)

/-- operations without the iteration orders. -/
inductive Cmd where
  | response (r : PollResponse) (now1 now2 : Time)
  | purge (now : Key → Time)
  | recalculate

/-- iterating in the order of the lists. -/
def Cmd.op (s : State) : Cmd → Op
  | .response r n1 n2 => .response r n1 n2
  | .purge now => .purge now
  | .recalculate => .recalculate s.intervalsNeedingRecalculation.keys (fun _ => s.hostAggregations)

theorem Cmd.op_valid (s : State) (c : Cmd) : (c.op s).Valid s := by
  cases c with
  | response r n1 n2 => trivial
  | purge now => trivial
  | recalculate => exact ⟨.refl _, fun _ => .refl _⟩

/-- the state after `cmds`. -/
def after (s : State) (cmds : List Cmd) : Option State := cmds.foldlM (fun s c => step sortAggs s (c.op s)) s

/-- the operations of `cmds`. -/
def ops (s : State) : List Cmd → List Op
  | [] => []
  | c :: t => c.op s :: ((step sortAggs s (c.op s)).elim [] (fun s' => ops s' t))

theorem Runs.append {sort : List IntAgg → List IntAgg} {s s1 s2 : State} {o1 o2 : List Op} (h1 : Runs sort s o1 s1) (h2 : Runs sort s1 o2 s2) :
    Runs sort s (o1 ++ o2) s2 := by
  induction h2 with
  | nil => simpa using h1
  | snoc h hv hs ih => rw [← List.append_assoc]; exact .snoc ih hv hs

theorem after_runs {s s' : State} {cmds : List Cmd} (h : after s cmds = some s') : Runs sortAggs s (ops s cmds) s' := by
  induction cmds generalizing s with
  | nil => cases h; exact .nil
  | cons c t ih =>
    unfold after at h
    rw [List.foldlM_cons] at h
    obtain ⟨s1, h1, h2⟩ := Option.bind_eq_some_iff.1 h
    have := ih h2
    show Runs sortAggs s (c.op s :: (step sortAggs s (c.op s)).elim [] (fun s' => ops s' t)) s'
    rw [h1]
    exact (Runs.append (Runs.snoc .nil (c.op_valid s) h1) this)

/-- a poll of this host answered with status 200 and this body; healthd runs in UTC. -/
def got (host : String) (fresh : Nat) (body : String) : Cmd :=
  .response (poll (fun _ => 0) fresh (bs host) ⟨9, 1⟩ 5 ⟨[], 0, []⟩ (bs "json error") (.answer 200 (bs body) none)) ⟨10, 1⟩ ⟨11, 1⟩

/-- the operations up to iteration orders. -/
def Cmd.plain : Cmd → Op
  | .response r n1 n2 => .response r n1 n2
  | .purge now => .purge now
  | .recalculate => .recalculate [] (fun _ => [])

theorem ops_cons {s s' : State} {c : Cmd} {t : List Cmd} (h : after s (c :: t) = some s') :
    ∃ s1, after s1 t = some s' ∧ ops s (c :: t) = c.op s :: ops s1 t := by
  unfold after at h
  rw [List.foldlM_cons] at h
  obtain ⟨s1, h1, h2⟩ := Option.bind_eq_some_iff.1 h
  refine ⟨s1, h2, ?_⟩
  show c.op s :: (step sortAggs s (c.op s)).elim [] (fun s' => ops s' t) = _
  rw [h1]; rfl

theorem events_ops {s s' : State} {cmds : List Cmd} (h : after s cmds = some s') (d : Int) : events d (ops s cmds) = events d (cmds.map Cmd.plain) := by
  induction cmds generalizing s with
  | nil => rfl
  | cons c t ih =>
    obtain ⟨s1, h1, h2⟩ := ops_cons h
    rw [h2]
    have := ih h1
    unfold events at this ⊢
    rw [List.map_cons, List.flatMap_cons, List.flatMap_cons, this]
    cases c <;> rfl

theorem agreed_ops {s s' : State} {cmds : List Cmd} (h : after s cmds = some s') : agreed (ops s cmds) = agreed (cmds.map Cmd.plain) := by
  induction cmds generalizing s with
  | nil => rfl
  | cons c t ih =>
    obtain ⟨s1, h1, h2⟩ := ops_cons h
    rw [h2]
    cases c with
    | response r n1 n2 =>
      show (if Succeeded r then _ else _) = (if Succeeded r then _ else _)
      rw [ih h1]
    | purge now => exact ih h1
    | recalculate => exact ih h1

theorem response_mem_ops {s : State} {cmds : List Cmd} {r : PollResponse} {n1 n2 : Time} (h : Op.response r n1 n2 ∈ ops s cmds) :
    Op.response r n1 n2 ∈ cmds.map Cmd.plain := by
  induction cmds generalizing s with
  | nil => cases h
  | cons c t ih =>
    rw [ops, List.mem_cons] at h
    rw [List.map_cons, List.mem_cons]
    rcases h with h | h
    · left
      cases c with
      | response r' a b => exact h
      | purge now => cases h
      | recalculate => cases h
    · right
      cases hs : step sortAggs s (c.op s) with
      | none => rw [hs] at h; cases h
      | some s1 => rw [hs] at h; exact ih h

end Healthd
