import Verif.Props.HealthdPolls
/-!
# Property C105: when goroutines are left behind
`C105_polls_partial` counts the goroutines that remain after `Stop`.  Here: for which numbers of hosts some remain.
-/
namespace Spec.Polls
open Rounds

/-- when a tick comes, all goroutines of the earlier rounds have ended and the aggregation loop has received all their messages. -/
def RoundByRound (s0 : Sys) (l : List Lab) : Prop := ∀ l1 l2 s, l = l1 ++ .tick :: l2 → run s0 l1 = some s → s.goroutines = 0 ∧ s.chan = []

/-- after `Stop` has returned in state `s`, some goroutine of a poll never ends. -/
def Leaves (s : Sys) : Prop := s.rest.stop = .returned ∧ ∀ l s', run s l = some s' → 0 < s'.goroutines

end Spec.Polls

namespace Rounds
open Spec.Polls

theorem step_returned {s s' : HdLoop.Sys} {x : HdLoop.Lab} (ih : s.stop = .returned → s.main = .stopped) (hs : HdLoop.step s x = some s')
    (hret : s'.stop = .returned) : s'.main = .stopped := by
  have idle : s.main = .idle → s.stop ≠ .returned := fun h h' => by have := ih h'; rw [h] at this; cases this
  cases x with
  | advance n => cases hs; exact ih hret
  | accept h =>
    simp only [HdLoop.step] at hs
    split at hs
    · rename_i hi _; cases hs; exact absurd hret (idle hi)
    · cases hs
  | reply =>
    simp only [HdLoop.step] at hs
    split at hs
    · rename_i i hi; cases hs; have := ih hret; rw [hi] at this; cases this
    · cases hs
  | wake =>
    simp only [HdLoop.step] at hs
    split at hs
    · split at hs <;> cases hs; exact ih hret
    · cases hs
  | consume => simp only [HdLoop.step] at hs; split at hs <;> [skip; cases hs]; rename_i hc; cases hs; exact absurd hret (idle hc.1)
  | request => simp only [HdLoop.step] at hs; split at hs <;> [skip; cases hs]; rename_i hc; cases hs; have := ih hret; rw [hc.1] at this; cases this
  | stop => simp only [HdLoop.step] at hs; split at hs <;> [skip; cases hs]; cases hs; cases hret
  | acceptStop => simp only [HdLoop.step] at hs; split at hs <;> [skip; cases hs]; cases hs; cases hret
  | stopped => simp only [HdLoop.step] at hs; split at hs <;> [skip; cases hs]; cases hs; rfl
  | _ => simp only [HdLoop.step] at hs; split at hs <;> [skip; cases hs]; cases hs; exact ih hret

/-- `Stop` returns only when the loop has ended. -/
theorem returned_stopped {clock : Int} {hosts : List Str} {s : Sys} {l : List Lab} (h : run (init clock hosts) l = some s) :
    s.rest.stop = .returned → s.rest.main = .stopped := by
  refine run_inv (P := fun s => s.rest.stop = .returned → s.rest.main = .stopped) ?_ (by intro h; cases h) h
  intro s x s' ih hs hret
  cases x with
  | tick =>
    simp only [step] at hs
    split at hs <;> [skip; cases hs]
    cases hs; exact ih hret
  | spawn r hp =>
    simp only [step] at hs
    split at hs <;> [skip; cases hs]
    split at hs <;> [skip; cases hs]
    cases hs; exact ih hret
  | deliver r hp =>
    simp only [step] at hs
    split at hs <;> [skip; cases hs]
    split at hs <;> [skip; cases hs]
    cases hs; exact ih hret
  | finish r =>
    simp only [step] at hs
    split at hs <;> [skip; cases hs]
    split at hs <;> [skip; cases hs]
    cases hs; exact ih hret
  | consume =>
    simp only [step] at hs
    split at hs <;> [skip; cases hs]
    split at hs <;> [skip; cases hs]
    rename_i hi
    cases hs
    have := ih hret
    rw [hi] at this; cases this
  | allIn =>
    simp only [step] at hs
    split at hs <;> [skip; cases hs]
    split at hs <;> [skip; cases hs]
    cases hs; exact ih hret
  | other l =>
    simp only [step] at hs
    split at hs <;> [cases hs; skip]
    obtain ⟨z, hz, rfl⟩ := Option.map_eq_some_iff.1 hs
    exact step_returned ih hz hret

theorem roundByRound_total {clock : Int} {hosts : List Str} (l : List Lab) : ∀ s : Sys, run (init clock hosts) l = some s → RoundByRound (init clock hosts) l →
    s.goroutines + s.chan.length ≤ hosts.length + 1 := by
  induction l using List.reverseRecOn with
  | nil =>
    intro s h _
    cases h
    simp [init, Sys.goroutines, Round.goroutines]
  | append_singleton t x ih =>
    intro s h hin
    obtain ⟨s1, h1, h2⟩ := run_snoc h
    have hin1 : RoundByRound (init clock hosts) t := fun l1 l2 s e hr => hin l1 (l2 ++ [x]) s (by rw [e]; simp) hr
    have i := ih s1 h1 hin1
    have hh : s1.hosts = hosts := (run_total h1).1
    have ht := (step_total h2).2.1
    by_cases hx : x = .tick
    · subst hx
      obtain ⟨h0, hc⟩ := hin t [] s1 rfl h1
      change total s = total s1 + (s1.hosts.length + 1) at ht
      simp only [step] at h2
      split at h2 <;> [skip; cases h2]
      cases h2
      simp only [total, hc, hh, List.length_nil] at ht ⊢
      omega
    · have e : total s = total s1 := by cases x <;> first | exact absurd rfl hx | exact ht
      have hlen : s1.taken.length ≤ s.taken.length := by
        cases x with
        | tick => exact absurd rfl hx
        | consume =>
          simp only [step] at h2
          split at h2 <;> [skip; cases h2]
          split at h2 <;> [skip; cases h2]
          cases h2
          simp
        | allIn =>
          simp only [step] at h2
          split at h2 <;> [skip; cases h2]
          split at h2 <;> [skip; cases h2]
          cases h2
          simp
        | other l =>
          simp only [step] at h2
          split at h2 <;> [cases h2; skip]
          obtain ⟨z, hz, rfl⟩ := Option.map_eq_some_iff.1 h2
          exact Nat.le_refl _
        | _ =>
          simp only [step] at h2
          split at h2 <;> [skip; cases h2]
          split at h2 <;> [skip; cases h2]
          cases h2
          exact Nat.le_refl _
      unfold total at e
      omega

/-- **C105, exactly when**: if the rounds do not overlap and the loop keeps up, `Stop` can leave goroutines behind if and only if there are 64 hosts or more. -/
theorem C105_iff (clock : Int) (hosts : List Str) :
    (∃ l s, run (init clock hosts) l = some s ∧ RoundByRound (init clock hosts) l ∧ Leaves s) ↔ 64 ≤ hosts.length := by
  constructor
  · rintro ⟨l, s, h, hr, hret, hl⟩
    obtain ⟨l', s', h1, h2⟩ := (C105_polls_partial h (returned_stopped h hret)).2
    have := roundByRound_total l s h hr
    have := hl l' s' h1
    omega
  · intro hh
    have hrun : run (init clock hosts) [.other .stop, .other .acceptStop, .other .stopped] =
        some { init clock hosts with rest := { HdLoop.init clock 0 with main := .stopped, stop := .returned } } := rfl
    refine ⟨_, _, hrun, ?_, rfl, fun l' s' hr => ?_⟩
    · intro l1 l2 s e _
      exfalso
      have : Lab.tick ∈ [Lab.other .stop, .other .acceptStop, .other .stopped] := by rw [e]; simp
      simp at this
    · have h1 := (C105_polls_partial hrun rfl).1 l' s' hr
      have h2 : Sys.goroutines { init clock hosts with rest := { HdLoop.init clock 0 with main := .stopped, stop := .returned } } = hosts.length + 1 := by
        simp [init, Sys.goroutines, Round.goroutines]
      rw [h2] at h1
      omega

/-- C105: without that, goroutines can be left behind however few hosts there are: 64 rounds may be under way. -/
theorem C105_few_false (clock : Int) (hosts : List Str) : ∃ l s, run (init clock hosts) l = some s ∧ Leaves s := by
  have key : ∀ n, ∃ s, run (init clock hosts) (List.replicate n .tick) = some s ∧ s.rest = HdLoop.init clock 0 ∧ s.chan = [] ∧ s.taken = [] := by
    intro n
    induction n with
    | zero => exact ⟨_, rfl, rfl, rfl, rfl⟩
    | succ k ih =>
      obtain ⟨s, h1, h2, h3, h4⟩ := ih
      rw [List.replicate_succ']
      have hs : step s .tick = some { s with rounds := s.rounds ++ [{ unspawned := s.hosts, polling := [], finished := false }] } := by
        simp only [step]; rw [if_pos (by rw [h2]; rfl)]
      exact ⟨_, run_append h1 (run_one hs), h2, h3, h4⟩
  obtain ⟨⟨hs', rest, rounds, chan, taken⟩, h1, h2, h3, h4⟩ := key 64
  subst h2 h3 h4
  have hcount := C119_count h1
  have hticks : ticks (List.replicate 64 Lab.tick) = 64 := by simp [ticks, List.countP_replicate]
  rw [hticks] at hcount
  have hrun : run ⟨hs', HdLoop.init clock 0, rounds, [], []⟩ [.other .stop, .other .acceptStop, .other .stopped] =
      some ⟨hs', { HdLoop.init clock 0 with main := .stopped, stop := .returned }, rounds, [], []⟩ := rfl
  have hall := run_append h1 hrun
  refine ⟨_, _, hall, rfl, fun l' s' hr => ?_⟩
  have h5 := (C105_polls_partial hall rfl).1 l' s' hr
  change (rounds.map Round.goroutines).sum + 0 + 0 = _ at hcount
  change (rounds.map Round.goroutines).sum + 0 - 64 ≤ _ at h5
  have : 65 ≤ (1 + 64) * (hosts.length + 1) := by omega
  omega

/-- a case of `RoundByRound`: the first round is over and received before the tick; afterwards `Stop`. -/
example : (run (init 1 twoHosts) (calmRound ++ [.consume, .other .request, .consume, .other .request, .allIn])).map (fun s => (s.goroutines, s.chan)) = some (0, []) ∧
    (run (init 1 twoHosts) (calmRound ++ [.consume, .other .request, .consume, .other .request, .allIn, .tick, .other .stop, .other .acceptStop, .other .stopped])).map
      (fun s => (s.goroutines, s.rest.stop)) = some (3, .returned) := by decide +kernel

end Rounds
