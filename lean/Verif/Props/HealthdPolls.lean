import Mathlib.Data.List.Induction
import Verif.Props.PollRounds
import Verif.Props.HealthdRequests
/-!
# Property C119: healthd's poll goroutines
Every tick (healthd.go:134-136) begins a round of polls whether or not the previous one has come to its end.
-/
namespace Spec.Polls
open Rounds

/-- how many ticks there were. -/
def ticks (l : List Lab) : Nat := l.countP (fun | .tick => true | _ => false)

/-- when a tick comes, all goroutines of the earlier rounds have ended.  (A poll lasts at most five seconds, poll.go:37, and ticks come every ten, healthd.go:109;
but a goroutine also waits for room in the channel.) -/
def InTime (s0 : Sys) (l : List Lab) : Prop := ∀ l1 l2 s, l = l1 ++ .tick :: l2 → run s0 l1 = some s → s.goroutines = 0

end Spec.Polls

namespace Rounds
open Spec.Polls

/-- the goroutines to come, the messages in the channel and those received. -/
def total (s : Sys) : Nat := s.goroutines + s.chan.length + s.taken.length

theorem step_total {s s' : Sys} {l : Lab} (hs : step s l = some s') :
    s'.hosts = s.hosts ∧ total s' = total s + (match l with | .tick => s.hosts.length + 1 | _ => 0) ∧
    (s.rest.main ≠ .idle → l ≠ .tick ∧ s'.taken = s.taken ∧ s.chan.length ≤ s'.chan.length) := by
  cases l with
  | tick =>
    simp only [step] at hs
    split at hs <;> [skip; cases hs]
    rename_i hi
    cases hs
    refine ⟨rfl, ?_, fun h => absurd hi h⟩
    simp only [total, Sys.goroutines, Round.goroutines, List.map_append, List.sum_append, List.map_cons, List.map_nil, List.sum_cons, List.sum_nil, List.length_nil]
    simp
    omega
  | consume =>
    simp only [step] at hs
    split at hs <;> [skip; cases hs]
    rename_i r hp q hq
    split at hs <;> [skip; cases hs]
    rename_i hi
    cases hs
    refine ⟨rfl, ?_, fun h => absurd hi h⟩
    simp only [total, Sys.goroutines, hq, List.length_append, List.length_cons, List.length_nil]
    omega
  | allIn =>
    simp only [step] at hs
    split at hs <;> [skip; cases hs]
    rename_i r q hq
    split at hs <;> [skip; cases hs]
    rename_i hi
    cases hs
    refine ⟨rfl, ?_, fun h => absurd hi h⟩
    simp only [total, Sys.goroutines, hq, List.length_append, List.length_cons, List.length_nil]
    omega
  | spawn r hp =>
    simp only [step] at hs
    split at hs <;> [skip; cases hs]
    rename_i x hx
    split at hs <;> [skip; cases hs]
    rename_i hmem
    cases hs
    have h1 := sum_set Round.goroutines hx { x with unspawned := x.unspawned.erase hp, polling := x.polling ++ [hp] }
    have h2 := List.length_erase_of_mem hmem
    have h3 := List.length_pos_of_mem hmem
    refine ⟨rfl, ?_, fun _ => ⟨by simp, rfl, Nat.le_refl _⟩⟩
    simp only [Round.goroutines, List.length_append, List.length_cons, List.length_nil] at h1
    simp only [total, Sys.goroutines]
    omega
  | deliver r hp =>
    simp only [step] at hs
    split at hs <;> [skip; cases hs]
    rename_i x hx
    split at hs <;> [skip; cases hs]
    rename_i hmem
    cases hs
    have h1 := sum_set Round.goroutines hx { x with polling := x.polling.erase hp }
    have h2 := List.length_erase_of_mem hmem.1
    have h3 := List.length_pos_of_mem hmem.1
    refine ⟨rfl, ?_, fun _ => ⟨by simp, rfl, by simp⟩⟩
    simp only [Round.goroutines] at h1
    simp only [total, Sys.goroutines, List.length_append, List.length_cons, List.length_nil]
    omega
  | finish r =>
    simp only [step] at hs
    split at hs <;> [skip; cases hs]
    rename_i x hx
    split at hs <;> [skip; cases hs]
    rename_i hc
    cases hs
    have h1 := sum_set Round.goroutines hx { x with finished := true }
    refine ⟨rfl, ?_, fun _ => ⟨by simp, rfl, by simp⟩⟩
    simp only [Round.goroutines, hc.2.2.1] at h1
    simp only [total, Sys.goroutines, List.length_append, List.length_cons, List.length_nil]
    simp at h1
    omega
  | other l =>
    simp only [step] at hs
    split at hs <;> [cases hs; skip]
    obtain ⟨z, hz, rfl⟩ := Option.map_eq_some_iff.1 hs
    exact ⟨rfl, rfl, fun _ => ⟨by simp, rfl, Nat.le_refl _⟩⟩

theorem run_total {s s' : Sys} {l : List Lab} (h : run s l = some s') : s'.hosts = s.hosts ∧ total s' = total s + ticks l * (s.hosts.length + 1) := by
  induction l generalizing s with
  | nil => cases h; exact ⟨rfl, by simp [ticks]⟩
  | cons x t ih =>
    obtain ⟨s1, h1, h2⟩ := run_cons h
    obtain ⟨a, b, _⟩ := step_total h1
    obtain ⟨c, d⟩ := ih h2
    refine ⟨c.trans a, ?_⟩
    rw [d, b, a]
    unfold ticks
    rw [List.countP_cons]
    cases x <;> simp [Nat.add_mul] <;> omega

theorem total_init (clock : Int) (hosts : List Str) : total (init clock hosts) = hosts.length + 1 := by
  simp [total, init, Sys.goroutines, Round.goroutines]

/-- **C119**: poll goroutines are neither lost nor doubled: every round starts one for each host and one that waits for these; each of them sends one message and
ends.  So at any time the goroutines that have not ended are exactly those of all rounds less the messages in the channel and the messages received. -/
theorem C119_count {clock : Int} {hosts : List Str} {s : Sys} {l : List Lab} (h : run (init clock hosts) l = some s) :
    s.goroutines + s.chan.length + s.taken.length = (1 + ticks l) * (hosts.length + 1) := by
  have := (run_total h).2
  rw [total_init] at this
  unfold total at this
  rw [this, Nat.add_mul, Nat.one_mul]
  rfl

theorem standstill_run {s s' : Sys} {l : List Lab} (hst : HdLoop.Standstill s.view) (h : run s l = some s') :
    HdLoop.Standstill s'.view ∧ total s' = total s ∧ s'.taken = s.taken ∧ s.chan.length ≤ s'.chan.length := by
  refine run_inv (P := fun s' => HdLoop.Standstill s'.view ∧ total s' = total s ∧ s'.taken = s.taken ∧ s.chan.length ≤ s'.chan.length) ?_ ⟨hst, rfl, rfl, Nat.le_refl _⟩ h
  rintro s1 x s2 ⟨a, b, c, d⟩ hs
  have hm : s1.rest.main ≠ .idle := by
    have : s1.rest.main = .requesting := a.1
    rw [this]; simp
  obtain ⟨_, e, f⟩ := step_total hs
  obtain ⟨f1, f2, f3⟩ := f hm
  refine ⟨(HdLoop.standstill_for_ever a (view_step hs).1).1, ?_, f2.trans c, by omega⟩
  cases x <;> first | exact absurd rfl f1 | (rw [e]; exact b)

/-- **C119**: when the loop has come to a standstill (C50), no round is begun any more: the goroutines that wait for room in the channel stay, but there are
never more of them. -/
theorem C119_standstill {s s' : Sys} {l : List Lab} (hst : HdLoop.Standstill s.view) (h : run s l = some s') :
    s'.goroutines + s'.chan.length = s.goroutines + s.chan.length ∧ s'.goroutines ≤ s.goroutines := by
  obtain ⟨_, a, b, c⟩ := standstill_run hst h
  unfold total at a
  rw [b] at a
  omega

/-- with 66 hosts or more such a standstill is reached. -/
theorem standstill_reached (clock : Int) (hc : 0 < clock) (hosts : List Str) (hh : 66 ≤ hosts.length) :
    ∃ l s, run (init clock hosts) l = some s ∧ HdLoop.Standstill s.view := by
  obtain ⟨l, s, h, ⟨a, b, c⟩, _⟩ := deadlock_reached clock hc hosts hh
  exact ⟨l, s, h, a, b, by rw [HdLoop.WillSend, c]; trivial⟩

theorem run_snoc {s s' : Sys} {l : List Lab} {x : Lab} (h : run s (l ++ [x]) = some s') : ∃ s1, run s l = some s1 ∧ step s1 x = some s' := by
  unfold run at *
  rw [List.foldlM_append] at h
  obtain ⟨s1, h1, h2⟩ := Option.bind_eq_some_iff.1 h
  exact ⟨s1, h1, by simpa using h2⟩

/-- **C119** (`_partial`: if at every tick the goroutines of the earlier rounds have ended): then there are never more of them than hosts, and one. -/
theorem C119_in_time_partial {clock : Int} {hosts : List Str} (l : List Lab) : ∀ s : Sys, run (init clock hosts) l = some s → InTime (init clock hosts) l →
    s.goroutines ≤ hosts.length + 1 := by
  induction l using List.reverseRecOn with
  | nil =>
    intro s h _
    cases h
    simp [init, Sys.goroutines, Round.goroutines]
  | append_singleton t x ih =>
    intro s h hin
    obtain ⟨s1, h1, h2⟩ := run_snoc h
    have hin1 : InTime (init clock hosts) t := fun l1 l2 s e hr => hin l1 (l2 ++ [x]) s (by rw [e]; simp) hr
    have i := ih s1 h1 hin1
    have hh : s1.hosts = hosts := (run_total h1).1
    by_cases hx : x = .tick
    · subst hx
      have h0 := hin t [] s1 rfl h1
      have ht : total s = total s1 + (s1.hosts.length + 1) := (step_total h2).2.1
      simp only [step] at h2
      split at h2 <;> [skip; cases h2]
      cases h2
      simp only [total] at ht
      rw [hh] at ht ⊢
      omega
    · have e : total s = total s1 := by
        have := (step_total h2).2.1
        cases x <;> first | exact absurd rfl hx | exact this
      have hlen : s1.chan.length + s1.taken.length ≤ s.chan.length + s.taken.length := by
        cases x with
        | tick => exact absurd rfl hx
        | consume =>
          simp only [step] at h2
          split at h2 <;> [skip; cases h2]
          rename_i r hp q hq
          split at h2 <;> [skip; cases h2]
          cases h2
          simp only [hq, List.length_append, List.length_cons, List.length_nil]
          omega
        | allIn =>
          simp only [step] at h2
          split at h2 <;> [skip; cases h2]
          rename_i r q hq
          split at h2 <;> [skip; cases h2]
          cases h2
          simp only [hq, List.length_append, List.length_cons, List.length_nil]
          omega
        | spawn r hp =>
          simp only [step] at h2
          split at h2 <;> [skip; cases h2]
          split at h2 <;> [skip; cases h2]
          cases h2
          exact Nat.le_refl _
        | deliver r hp =>
          simp only [step] at h2
          split at h2 <;> [skip; cases h2]
          split at h2 <;> [skip; cases h2]
          cases h2
          simp only [List.length_append]
          omega
        | finish r =>
          simp only [step] at h2
          split at h2 <;> [skip; cases h2]
          split at h2 <;> [skip; cases h2]
          cases h2
          simp only [List.length_append]
          omega
        | other l =>
          simp only [step] at h2
          split at h2 <;> [cases h2; skip]
          obtain ⟨z, hz, rfl⟩ := Option.map_eq_some_iff.1 h2
          exact Nat.le_refl _
      unfold total at e
      omega

/-- C119, false without that: if polls last longer than ticks are apart, nothing limits the number of goroutines. -/
theorem C119_false (clock : Int) (hosts : List Str) (n : Nat) :
    ∃ l s, run (init clock hosts) l = some s ∧ l.length = n ∧ s.goroutines = (n + 1) * (hosts.length + 1) := by
  have key : ∀ n, ∃ s, run (init clock hosts) (List.replicate n .tick) = some s ∧ s.rest.main = .idle ∧ s.chan = [] ∧ s.taken = [] := by
    intro n
    induction n with
    | zero => exact ⟨_, rfl, rfl, rfl, rfl⟩
    | succ k ih =>
      obtain ⟨s, h1, h2, h3, h4⟩ := ih
      rw [List.replicate_succ']
      have hs : step s .tick = some { s with rounds := s.rounds ++ [{ unspawned := s.hosts, polling := [], finished := false }] } := by simp only [step]; rw [if_pos h2]
      exact ⟨_, run_append h1 (run_one hs), h2, h3, h4⟩
  obtain ⟨s, h1, _, h3, h4⟩ := key n
  refine ⟨_, s, h1, by simp, ?_⟩
  have := C119_count h1
  rw [h3, h4] at this
  simp only [List.length_nil, Nat.add_zero] at this
  rw [this]
  have : ticks (List.replicate n Lab.tick) = n := by simp [ticks, List.countP_replicate]
  rw [this, Nat.add_comm]

/-- a case: two hosts; the first round ends before the tick. -/
def twoHosts : List Str := [bs "a", bs "b"]
def calmRound : List Lab := [.spawn 0 (bs "a"), .spawn 0 (bs "b"), .deliver 0 (bs "b"), .deliver 0 (bs "a"), .finish 0]

theorem calm_inTime : InTime (init 1 twoHosts) (calmRound ++ [.tick]) := by
  intro l1 l2 s e hr
  have hpos : l1.length = 5 := by
    have hall : ∀ k : Fin 6, (calmRound ++ [Lab.tick])[k]? = some .tick → k.val = 5 := by decide +kernel
    have hk : l1.length < 6 := by
      have := congrArg List.length e
      simp [calmRound] at this
      omega
    exact hall ⟨l1.length, hk⟩ (by simp only [Fin.getElem?_fin, e]; simp)
  have : l1 = calmRound := by
    have := congrArg (List.take 5) e
    rw [← hpos, List.take_left] at this
    rw [← this, hpos]
    decide +kernel
  subst this
  have : (run (init 1 twoHosts) calmRound).map (·.goroutines) = some 0 := by decide +kernel
  rw [hr] at this
  exact Option.some.inj this

example : (run (init 1 twoHosts) (calmRound ++ [.tick])).map (fun s => (s.goroutines, s.chan.length)) = some (3, 3) ∧ InTime (init 1 twoHosts) (calmRound ++ [.tick]) :=
  ⟨by decide +kernel, calm_inTime⟩

end Rounds
