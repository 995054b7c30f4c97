import Verif.Props.Healthtop
import Mathlib.Data.List.Range
/-!
# Property C118: healthtop's polls; and C77 when polls are answered in time
`http.Get` (jobs.go:70, hosts.go:45) has no time limit, and a poll is started every second whether or not the previous ones were answered.
-/
namespace Spec.Top
open Healthtop

/-- how many seconds have passed. -/
def ticks {α : Type} (ls : List (Lab α)) : Nat := ls.countP (fun | .tick => true | _ => false)

/-- the polls whose results were received, in order; poll 0 is the one at the start, poll k that of the k-th tick. -/
def answered {α : Type} (ls : List (Lab α)) : List Nat :=
  ls.filterMap (fun
    | .receive i _ _ => some i
    | _ => none)

/-- those of them that were successes, with their data. -/
def successes {α : Type} (ls : List (Lab α)) : List (Nat × Answer α) :=
  ls.filterMap (fun
    | .receive i (.ok a) _ => some (i, a)
    | _ => none)

/-- every poll is answered, and the answer received, before the next second has passed. -/
def InTime {α : Type} (ls : List (Lab α)) : Prop :=
  ∀ l1 l2, ls = l1 ++ .tick :: l2 → (answered l1).length = 1 + ticks l1

end Spec.Top

namespace TopPolls
open Healthtop Spec.Top Api

variable {α : Type}

theorem ticks_snoc (ls : List (Lab α)) (l : Lab α) : ticks (ls ++ [l]) = ticks ls + (match l with | .tick => 1 | _ => 0) := by
  unfold ticks
  rw [List.countP_append]
  cases l <;> simp

theorem answered_snoc (ls : List (Lab α)) (l : Lab α) : answered (ls ++ [l]) = answered ls ++ (match l with | .receive i _ _ => [i] | _ => []) := by
  unfold answered
  rw [List.filterMap_append]
  cases l <;> simp

theorem successes_snoc (ls : List (Lab α)) (l : Lab α) : successes (ls ++ [l]) = successes ls ++ (match l with | .receive i (.ok a) _ => [(i, a)] | _ => []) := by
  unfold successes
  rw [List.filterMap_append]
  rcases l with _ | _ | ⟨i, _ | _, _⟩ <;> simp

/-- the polls under way. -/
def underWay (s : Loop α) : List Nat := s.pending ++ s.ready.map (·.1)

theorem run_snoc [DecidableEq α] (ls : List (Lab α)) (l : Lab α) : ∀ s : Loop α, s.run (ls ++ [l]) = (s.run ls).bind (fun s' => s'.step l) := by
  induction ls with
  | nil => intro s; simp [Loop.run]
  | cons x t ih =>
    intro s
    rw [List.cons_append, Loop.run, Loop.run]
    cases s.step x with
    | none => rfl
    | some s' => exact ih s'

/-- what a step does to the polls under way. -/
theorem step_underWay [DecidableEq α] {s s' : Loop α} {l : Lab α} (h : s.step l = some s') :
    match l with
    | .tick => s'.next = s.next + 1 ∧ (underWay s').Perm (s.next :: underWay s)
    | .result _ _ => s'.next = s.next ∧ (underWay s').Perm (underWay s)
    | .receive i _ _ => s'.next = s.next ∧ (i :: underWay s').Perm (underWay s) := by
  cases l with
  | tick =>
    rw [Loop.step, Option.some.injEq] at h
    subst h
    refine ⟨rfl, ?_⟩
    simp only [underWay, List.append_assoc, List.singleton_append]
    exact List.perm_middle
  | result i r =>
    rw [Loop.step] at h
    split at h
    · rename_i hm
      rw [Option.some.injEq] at h
      subst h
      refine ⟨rfl, ?_⟩
      simp only [underWay, List.map_append, List.map_cons, List.map_nil, ← List.append_assoc]
      refine (List.perm_append_comm).trans ?_
      rw [List.singleton_append, ← List.cons_append]
      exact (List.perm_cons_erase hm).symm.append_right _
    · cases h
  | receive i r now =>
    have key : ∀ x : Loop α, x.pending = s.pending → x.ready = s.ready.erase (i, r) → (i, r) ∈ s.ready → (i :: underWay x).Perm (underWay s) := by
      intro x h1 h2 hm
      simp only [underWay, h1, h2]
      refine List.perm_middle.symm.trans ?_
      refine (List.Perm.refl _).append ?_
      have := (List.perm_cons_erase hm).map Prod.fst
      exact this.symm
    cases r with
    | ok a =>
      simp only [Loop.step] at h
      split at h
      · rename_i hm
        rw [Option.some.injEq] at h
        subst h
        exact ⟨rfl, key _ rfl rfl hm⟩
      · cases h
    | error e =>
      simp only [Loop.step] at h
      split at h
      · rename_i hm
        rw [Option.some.injEq] at h
        subst h
        exact ⟨rfl, key _ rfl rfl hm⟩
      · cases h

theorem run_underWay [DecidableEq α] (ls : List (Lab α)) : ∀ s : Loop α, Loop.init.run ls = some s →
    s.next = 1 + ticks ls ∧ (answered ls ++ underWay s).Perm (List.range (1 + ticks ls)) := by
  induction ls using List.reverseRecOn with
  | nil =>
    intro s h
    rw [Loop.run, Option.some.injEq] at h
    subst h
    exact ⟨rfl, .refl _⟩
  | append_singleton t l ih =>
    intro s h
    rw [run_snoc] at h
    obtain ⟨s1, h1, h2⟩ := Option.bind_eq_some_iff.1 h
    obtain ⟨i1, i2⟩ := ih s1 h1
    have st := step_underWay h2
    rw [ticks_snoc, answered_snoc]
    cases l with
    | tick =>
      obtain ⟨a, b⟩ := st
      refine ⟨by simp only []; omega, ?_⟩
      simp only [List.append_nil]
      have e : 1 + (ticks t + 1) = (1 + ticks t) + 1 := by omega
      rw [e, List.range_succ, ← i1]
      refine ((List.Perm.refl _).append b).trans (List.perm_middle.trans ?_)
      rw [i1]
      exact (i2.cons _).trans (List.perm_append_comm (l₁ := [_]))
    | result i r =>
      obtain ⟨a, b⟩ := st
      refine ⟨by simp only []; omega, ?_⟩
      simpa using ((List.Perm.refl _).append b).trans i2
    | receive i r now =>
      obtain ⟨a, b⟩ := st
      refine ⟨by simp only []; omega, ?_⟩
      simp only [Nat.add_zero, List.append_assoc, List.singleton_append]
      exact ((List.Perm.refl _).append b).trans i2

/-- **C118**: polls are neither lost nor doubled: at any time every poll that was started — one at the start and one every second — has been received exactly
once or is under way.  So as many are under way as seconds have passed plus one, less the answers received. -/
theorem C118_count [DecidableEq α] {ls : List (Lab α)} {s : Loop α} (h : Loop.init.run ls = some s) :
    (answered ls ++ (s.pending ++ s.ready.map (·.1))).Perm (List.range (1 + ticks ls)) ∧
    s.pending.length + s.ready.length + (answered ls).length = 1 + ticks ls := by
  have hp := (run_underWay ls s h).2
  refine ⟨hp, ?_⟩
  have := hp.length_eq
  simp only [underWay, List.length_append, List.length_map, List.length_range] at this
  omega

/-- C118, false in general: if healthd does not answer, a goroutine (and a connection) is left behind every second, without bound. -/
theorem C118_false [DecidableEq α] (n : Nat) : ∃ (ls : List (Lab α)) (s : Loop α), Loop.init.run ls = some s ∧ ls.length = n ∧ n < s.pending.length := by
  refine ⟨List.replicate n .tick, ?_⟩
  induction n with
  | zero => exact ⟨Loop.init, rfl, rfl, by simp [Loop.init]⟩
  | succ k ih =>
    obtain ⟨s, h1, _, h3⟩ := ih
    rw [List.replicate_succ', run_snoc, h1]
    refine ⟨_, rfl, by simp, ?_⟩
    simp only [List.length_append, List.length_singleton]
    omega

theorem inTime_prefix {l1 l2 : List (Lab α)} (h : InTime (l1 ++ l2)) : InTime l1 := by
  rintro a b rfl
  exact h a (b ++ l2) (by simp)

theorem inTime_order [DecidableEq α] (ls : List (Lab α)) : ∀ s : Loop α, Loop.init.run ls = some s → InTime ls →
    answered ls = List.range (answered ls).length ∧ (answered ls).length ≤ 1 + ticks ls ∧ ticks ls ≤ (answered ls).length := by
  induction ls using List.reverseRecOn with
  | nil => intro s _ _; exact ⟨rfl, by simp [answered], by simp [ticks]⟩
  | append_singleton t l ih =>
    intro s h hin
    rw [run_snoc] at h
    obtain ⟨s1, h1, h2⟩ := Option.bind_eq_some_iff.1 h
    obtain ⟨i1, i2, i3⟩ := ih s1 h1 (inTime_prefix hin)
    obtain ⟨n1, n2⟩ := run_underWay t s1 h1
    have st := step_underWay h2
    rw [ticks_snoc, answered_snoc]
    cases l with
    | tick =>
      have := hin t [] rfl
      simp only [List.append_nil]
      exact ⟨i1, by omega, by omega⟩
    | result i r => simpa using ⟨i1, i2, i3⟩
    | receive i r now =>
      obtain ⟨_, b⟩ := st
      have hl := n2.length_eq
      have hb := b.length_eq
      simp only [List.length_append, List.length_range, List.length_cons] at hl hb
      have e1 : (underWay s1).length = 1 := by omega
      have e2 : underWay s1 = [i] := by
        obtain ⟨x, hx⟩ := List.length_eq_one_iff.1 e1
        have : i ∈ underWay s1 := b.subset (by simp)
        rw [hx] at this ⊢
        rw [List.mem_singleton.1 this]
      have hi : i = (answered t).length := by
        rw [e2] at n2
        have hlen : 1 + ticks t = (answered t).length + 1 := by simp only [e1] at hl; omega
        rw [hlen, List.range_succ] at n2
        rw [i1] at n2
        simp only [List.length_range] at n2
        have := (List.perm_append_left_iff _).1 n2
        simpa using this
      simp only [List.length_append, List.length_singleton, Nat.add_zero]
      refine ⟨?_, by omega, by omega⟩
      rw [List.range_succ, ← i1, hi]

/-- **C118** (`_partial`: if every poll is answered, and its answer received, before the next second has passed): then never more than one poll is under way. -/
theorem C118_in_time_partial [DecidableEq α] {ls : List (Lab α)} {s : Loop α} (h : Loop.init.run ls = some s) (hin : InTime ls) :
    s.pending.length + s.ready.length ≤ 1 := by
  have := (C118_count h).2
  have := (inTime_order ls s h hin).2.2
  omega

theorem successes_sublist (ls : List (Lab α)) : ((successes ls).map (·.1)).Sublist (answered ls) := by
  induction ls using List.reverseRecOn with
  | nil => exact .slnil
  | append_singleton t l ih =>
    rw [successes_snoc, answered_snoc, List.map_append]
    refine ih.append ?_
    rcases l with _ | _ | ⟨i, _ | _, _⟩ <;> simp

theorem data_successes (ls : List (Lab α)) : data (received ls) = (successes ls).getLast?.map (·.2) := by
  unfold data
  have : (received ls).filterMap (fun p => match p.1 with | .ok a => some a | .error _ => none) = (successes ls).map (·.2) := by
    unfold received successes
    induction ls with
    | nil => rfl
    | cons l t ih => rcases l with _ | _ | ⟨i, _ | _, _⟩ <;> simpa using ih
  exact (congrArg List.getLast? this).trans List.getLast?_map

/-- **C77** (`_partial`: if every poll is answered, and its answer received, before the next second has passed; see `C77_stale_false` for polls that overlap): the
screen never goes back: what it shows is the answer to the latest of all the polls that succeeded so far. -/
theorem C77_in_time_partial [DecidableEq α] {ls : List (Lab α)} {s : Loop α} (h : Loop.init.run ls = some s) (hin : InTime ls) :
    s.last = (successes ls).getLast?.map (·.2) ∧ ((successes ls).map (·.1)).Pairwise (· < ·) := by
  refine ⟨by rw [(C76_status ls s h).1, data_successes], ?_⟩
  refine List.Pairwise.sublist (successes_sublist ls) ?_
  rw [(inTime_order ls s h hin).1]
  exact List.pairwise_lt_range

/-- a case: a success, an error, a success, each within its second. -/
def calm : List (Lab Row) := [.result 0 (.ok ⟨bs "hd", 60, []⟩), .receive 0 (.ok ⟨bs "hd", 60, []⟩) 5, .tick, .result 1 (.error (bs "refused")), .receive 1 (.error (bs "refused")) 6, .tick,
  .result 2 (.ok ⟨bs "hd", 61, []⟩), .receive 2 (.ok ⟨bs "hd", 61, []⟩) 7, .tick]

theorem calm_inTime : InTime calm := by
  have : ∀ k : Fin calm.length, (match calm[k] with | .tick => true | _ => false) = true → (answered (calm.take k)).length = 1 + ticks (calm.take k) := by decide +kernel
  intro l1 l2 e
  have hk : l1.length < calm.length := by rw [e]; simp
  have h1 := this ⟨l1.length, hk⟩ (by
    have : calm[l1.length] = .tick := by simp [e]
    simp only [Fin.getElem_fin, this])
  have h2 : calm.take l1.length = l1 := by rw [e]; simp
  simpa only [h2] using h1

example : (Loop.init.run calm).map (fun s => (s.pending, s.ready.length, s.last)) = some ([3], 0, some ⟨bs "hd", 61, []⟩) ∧ InTime calm ∧ (successes calm).map (·.1) = [0, 2] :=
  ⟨by decide +kernel, calm_inTime, by decide +kernel⟩

end TopPolls
