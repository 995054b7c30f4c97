import Verif.Props.LivenessRoundsCase
import Verif.Props.HealthdRounds
/-!
# C122 with few hosts: every round ends, without a condition on the debouncer
-/
open Spec

/-- each tick finds the last round settled. -/
def Spec.TicksSettled {clock : Int} {hosts : List Str} (x : Exec Rounds.step (Rounds.init clock hosts)) : Prop :=
  ∀ n, x.lab n = some .tick → RoundSettled (x.st n).view

namespace Rounds
variable {clock : Int} {hosts : List Str}

theorem few_at (x : Exec Rounds.step (Rounds.init clock hosts)) (ht : TicksSettled x) (n : Nat) : HdLoop.Few hosts.length (x.st n).view := by
  induction n with
  | zero =>
    have h : (x.st 0).view = HdLoop.init clock hosts.length := (coarse x).start
    rw [h]
    exact ⟨by simp [HdLoop.inFlight, HdLoop.init], fun g => by simp [HdLoop.init, Healthd.isZero, Healthd.zeroTime] at g, fun g => by cases g⟩
  | succ n ih =>
    rcases (coarse x).cases_lab n with ⟨_, e⟩ | ⟨l, hl, e⟩
    · have e : (x.st (n + 1)).view = (x.st n).view := e
      rw [e]; exact ih
    · refine HdLoop.few_step ih ?_ e
      rintro k rfl
      have hl : (x.lab n).bind (fun l => (l.view hosts).head?) = some (.tick k) := hl
      cases hx : x.lab n with
      | none => rw [hx] at hl; cases hl
      | some l =>
        rw [hx, Option.bind_some] at hl
        cases l with
        | tick => simp [Lab.view] at hl; exact ⟨hl.symm, ht n hx⟩
        | other l =>
          simp [Lab.view] at hl
          subst hl
          have := x.next n _ hx
          simp [step, aboutPolls] at this
        | _ => simp [Lab.view] at hl

/-- with at most 65 hosts, and rounds that do not overlap, the aggregation goroutine and the debouncer never wait for each other. -/
theorem few_not_stuck (x : Exec Rounds.step (Rounds.init clock hosts)) (hh : hosts.length ≤ 65) (ht : TicksSettled x) (n : Nat) :
    ¬ HdLoop.Stuck (x.st n).rest := by
  rintro ⟨h1, h2, h3⟩
  have hf := few_at x ht n
  have := hf.one (hf.send h3)
  have e1 : (x.st n).view.main = .requesting := h1
  have e2 : (x.st n).view.requests = 64 := h2
  simp only [HdLoop.inFlight, e1, e2, if_true] at this
  omega

/-- **C122**: with at most 65 hosts, and rounds that do not overlap, every round comes to its end; nothing has to be assumed about the debouncer. (From 66 hosts on
this is false, C122_ends_iff.) -/
theorem C122_few (x : Exec Rounds.step (Rounds.init clock hosts)) (F : RoundsFair x) (hh : hosts.length ≤ 65) (ht : TicksSettled x)
    (hns : ∀ n, x.lab n ≠ some (.other .stop)) (n r : Nat) (hr : r < (x.st n).rounds.length) :
    ∃ m, n ≤ m ∧ (r, none) ∈ (x.st m).taken ∧ ∀ hp ∈ hosts, (r, some hp) ∈ (x.st m).taken :=
  C122_ends x F (few_not_stuck x hh ht) hns n r hr

theorem Sample.settled : TicksSettled Sample.live := by
  intro n h
  rw [Sample.live_lab] at h
  split at h <;> [skip; cases h]
  have h : Sample.labs n = .tick := by simpa using h
  obtain ⟨k, i, hi, rfl⟩ : ∃ k i, i < 13 ∧ n = 13 * k + i := ⟨n / 13, n % 13, by omega, by omega⟩
  rw [Sample.labs_at k i hi] at h
  have : i ∈ [0, 1, 2, 3, 4, 5, 6, 7, 8, 9, 10, 11, 12] := by simp; omega
  simp only [List.mem_cons, List.not_mem_nil, or_false] at this
  have e : i = 12 := by
    rcases this with rfl | rfl | rfl | rfl | rfl | rfl | rfl | rfl | rfl | rfl | rfl | rfl | rfl <;> simp [Sample.period] at h ⊢
  subst e
  have w := (Sample.all k).s12
  obtain ⟨D, hD, hr⟩ := w.rounds
  have hold := Sample.over
  have hinv : (Sample.live.st (13 * k + 12)).polls = 0 := by
    unfold Sys.polls
    refine sum_zero (fun y hy => ?_)
    rw [hr] at hy
    rcases List.mem_append.1 hy with hy | hy
    · obtain ⟨r, hr1⟩ := List.mem_iff_getElem?.1 hy
      have hlt : r < k := hD ▸ (List.getElem?_eq_some_iff.1 hr1).1
      have := hold r (13 * k + 12) (by omega)
      rw [hr, List.getElem?_append_left (by omega), hr1] at this
      cases this; rfl
    · cases List.mem_singleton.1 hy; rfl
  refine ⟨hinv, ?_, ?_, ?_, ?_⟩ <;> simp [Sys.view, withCounts, w.chan, w.rest, Healthd.zeroTime]

/-- a case of `C122_few`: the execution of `LivenessRoundsCase`. -/
example : RoundsFair Sample.live ∧ [Sample.host].length ≤ 65 ∧ TicksSettled Sample.live ∧ (∀ n, Sample.live.lab n ≠ some (.other .stop)) :=
  ⟨Sample.fair, by decide, Sample.settled, Sample.no_stop⟩

/-! ### When the two do wait for each other -/

theorem stuck_run {l : List Lab} : ∀ {s s' : Sys}, HdLoop.Stuck s.rest → run s l = some s' →
    HdLoop.Stuck s'.rest ∧ s'.taken = s.taken ∧ s'.rounds.length = s.rounds.length := by
  induction l with
  | nil => intro s s' h hr; cases hr; exact ⟨h, rfl, rfl⟩
  | cons a t ih =>
    intro s s' h hr
    obtain ⟨s1, h1, h2⟩ := run_cons hr
    have hm : s.rest.main ≠ .idle := by rw [h.1]; simp
    have key : HdLoop.Stuck s1.rest ∧ s1.taken = s.taken ∧ s1.rounds.length = s.rounds.length := by
      cases a with
      | tick => simp [step, hm] at h1
      | spawn r hp =>
        simp only [step] at h1
        split at h1 <;> [skip; cases h1]
        split at h1 <;> cases h1
        exact ⟨h, rfl, by simp [setRound]⟩
      | deliver r hp =>
        simp only [step] at h1
        split at h1 <;> [skip; cases h1]
        split at h1 <;> cases h1
        exact ⟨h, rfl, by simp [setRound]⟩
      | finish r =>
        simp only [step] at h1
        split at h1 <;> [skip; cases h1]
        split at h1 <;> cases h1
        exact ⟨h, rfl, by simp [setRound]⟩
      | consume =>
        simp only [step] at h1
        split at h1 <;> [skip; cases h1]
        rw [if_neg hm] at h1; cases h1
      | allIn =>
        simp only [step] at h1
        split at h1 <;> [skip; cases h1]
        rw [if_neg hm] at h1; cases h1
      | other l =>
        simp only [step] at h1
        split at h1 <;> [cases h1; skip]
        obtain ⟨z, hz, rfl⟩ := Option.map_eq_some_iff.1 h1
        exact ⟨(HdLoop.stuck_step h hz).1, rfl, rfl⟩
    obtain ⟨k1, k2, k3⟩ := ih key.1 h2
    exact ⟨k1, k2.trans key.2.1, k3.trans key.2.2⟩

/-- **C122 needs the condition**: with 66 hosts or more, healthd can come to a state after which nothing is received from the polls and no round begins, however
long it runs. -/
theorem C122_false (clock : Int) (hc : 0 < clock) (hosts : List Str) (hh : 66 ≤ hosts.length) :
    ∃ l s, run (init clock hosts) l = some s ∧ ∀ l' s', run s l' = some s' → s'.taken = s.taken ∧ s'.rounds.length = s.rounds.length ∧ Lab.tick ∉ l' := by
  obtain ⟨l, s, hs, h1, _, _⟩ := deadlock_reached clock hc hosts hh
  have h1 : HdLoop.Stuck s.rest := h1
  refine ⟨l, s, hs, fun l' s' hr => ⟨(stuck_run h1 hr).2.1, (stuck_run h1 hr).2.2, fun ht => ?_⟩⟩
  obtain ⟨a, b, rfl⟩ := List.append_of_mem ht
  unfold run at hr
  rw [List.foldlM_append] at hr
  obtain ⟨u, hu, hv⟩ := Option.bind_eq_some_iff.1 hr
  obtain ⟨v, hv1, _⟩ := run_cons hv
  have := (stuck_run h1 hu).1.1
  simp [step, this] at hv1

end Rounds
