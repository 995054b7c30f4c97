import Verif.Props.HealthdLoop
/-!
# C50: how many hosts healthd can monitor without coming to a standstill
-/
open Healthd HdLoop

namespace Spec
/-- nothing is left of the last round of polls: all responses consumed, all requests taken, the recalculation done. -/
def RoundSettled (s : HdLoop.Sys) : Prop :=
  s.polling = 0 ∧ s.responses = 0 ∧ s.requests = 0 ∧ s.oldest.ns = 0 ∧ s.deb ≠ .sending

/-- each tick polls all hosts, and finds the last round settled. -/
def RoundByRound (hosts : Nat) (s0 : HdLoop.Sys) (l : List HdLoop.Lab) : Prop :=
  ∀ pre n post, l = pre ++ .tick n :: post → n = hosts ∧ ∀ s, HdLoop.run s0 pre = some s → RoundSettled s
end Spec
open Spec

namespace HdLoop

/-- responses on their way to the debouncer. -/
def inFlight (s : Sys) : Nat := s.polling + s.responses + s.requests + (if s.main = .requesting then 1 else 0)

structure Few (hosts : Nat) (s : Sys) : Prop where
  all : inFlight s ≤ hosts
  one : isZero s.oldest = false → inFlight s + 1 ≤ hosts
  send : s.deb = .sending → isZero s.oldest = false

theorem few_step {hosts : Nat} {s s' : Sys} {x : Lab} (h : Few hosts s) (ht : ∀ n, x = .tick n → n = hosts ∧ RoundSettled s) (hs : step s x = some s') : Few hosts s' := by
  obtain ⟨h1, h2, h3⟩ := h
  have keep : ∀ {s' : Sys}, inFlight s' ≤ inFlight s → s'.oldest = s.oldest → (s'.deb = .sending → s.deb = .sending) → Few hosts s' := by
    intro s' a b c
    exact ⟨by omega, fun g => by have := h2 (b ▸ g); omega, fun g => by rw [b]; exact h3 (c g)⟩
  cases x with
  | advance n => cases hs; exact keep (Nat.le_refl _) rfl id
  | tick n =>
    simp only [step] at hs
    split at hs
    · next hi =>
      cases hs
      obtain ⟨rfl, g1, g2, g3, g4, g5⟩ := ht n rfl
      refine ⟨by simp [inFlight, hi, g1, g2, g3], fun g => ?_, fun g => absurd g g5⟩
      simp [isZero, g4] at g
    · cases hs
  | deliver =>
    simp only [step] at hs
    split at hs
    · next hi => cases hs; exact keep (by simp [inFlight]; omega) rfl id
    · cases hs
  | consume =>
    simp only [step] at hs
    split at hs
    · next hi => cases hs; exact keep (by simp [inFlight, hi.1]; omega) rfl id
    · cases hs
  | request =>
    simp only [step] at hs
    split at hs
    · next hi => cases hs; exact keep (by simp [inFlight, hi.1]; omega) rfl id
    · cases hs
  | take =>
    simp only [step] at hs
    split at hs
    · next hi =>
      cases hs
      have e : inFlight { s with requests := s.requests - 1, oldest := debouncerTake s.oldest ⟨s.clock, 1⟩, deb := .checking } + 1 = inFlight s := by
        simp only [inFlight]; omega
      exact ⟨by omega, fun _ => by omega, fun g => by cases g⟩
    · cases hs
  | wake =>
    simp only [step] at hs
    split at hs
    · split at hs
      · cases hs; exact keep (Nat.le_refl _) rfl (fun g => by cases g)
      · cases hs
    · cases hs
  | check =>
    simp only [step] at hs
    split at hs
    · next hi =>
      cases hs
      refine ⟨h1, h2, fun g => ?_⟩
      by_cases hd : debouncerDue threshold s.oldest ⟨s.clock, 1⟩ = true
      · unfold debouncerDue at hd
        simp only [Bool.and_eq_true, Bool.not_eq_true'] at hd
        exact hd.1
      · rw [if_neg hd] at g; cases g
    · cases hs
  | fire =>
    simp only [step] at hs
    split at hs
    · next hi => cases hs; exact ⟨h1, fun g => by simp [isZero, zeroTime] at g, fun g => by cases g⟩
    · cases hs
  | accept k =>
    simp only [step] at hs
    split at hs
    · next h3' _ => cases hs; exact keep (by simp [inFlight, h3']) rfl id
    · cases hs
  | reply =>
    simp only [step] at hs
    split at hs
    · next h3' => cases hs; exact keep (by simp [inFlight, h3']) rfl id
    · cases hs
  | sleep =>
    simp only [step] at hs
    split at hs
    · cases hs; exact keep (Nat.le_refl _) rfl (fun g => by cases g)
    · cases hs
  | acceptStop =>
    simp only [step] at hs
    split at hs
    · next hi => cases hs; exact keep (by simp [inFlight, hi.1]) rfl id
    · cases hs
  | stopped =>
    simp only [step] at hs
    split at hs
    · next hi => cases hs; exact keep (by simp [inFlight, hi.1]) rfl id
    · cases hs
  | _ =>
    simp only [step] at hs
    split at hs <;> cases hs
    all_goals exact keep (Nat.le_refl _) rfl id

theorem few_run {clock : Int} {hosts : Nat} {l : List Lab} {s : Sys} (h : run (init clock hosts) l = some s) (hr : RoundByRound hosts (init clock hosts) l) : Few hosts s := by
  induction l using snocInduction generalizing s with
  | nil => cases h; exact ⟨by simp [inFlight, init], fun g => by simp [init, isZero, zeroTime] at g, fun g => by cases g⟩
  | snoc t x ih =>
    obtain ⟨s1, h1, h2⟩ := run_snoc h
    refine few_step (ih h1 ?_) ?_ h2
    · rintro pre n post rfl
      exact hr pre n (post ++ [x]) (by simp)
    · rintro n rfl
      obtain ⟨a, b⟩ := hr t n [] rfl
      exact ⟨a, b s1 h1⟩

/-- C50, exactly: if the rounds of polls do not overlap, healthd can come to a standstill if and only if it monitors 66 hosts or more. -/
theorem C50_iff (clock : Int) (hc : 0 < clock) (hosts : Nat) :
    (∃ l s, run (init clock hosts) l = some s ∧ RoundByRound hosts (init clock hosts) l ∧
      ∀ l' s', run s l' = some s' → s'.main = .requesting ∧ s'.deb = .sending) ↔ 66 ≤ hosts := by
  constructor
  · rintro ⟨l, s, h, hr, hst⟩
    have hf := few_run h hr
    obtain ⟨h1, h2⟩ := hst [] s rfl
    have := hf.one (hf.send h2)
    simp only [inFlight, h1, if_true] at this
    by_contra hlt
    have hroom : s.requests < 64 := by omega
    obtain ⟨h3, _⟩ := hst [.request] { s with requests := s.requests + 1, main := .idle } (run_one (if_pos ⟨h1, hroom⟩))
    cases h3
  · intro hh
    obtain ⟨s, ⟨l, hl, hp⟩, h1, _, _⟩ := stuck_reached clock hc hosts hh
    refine ⟨l, s, hl, ?_, ?_⟩
    · rintro pre n post rfl
      have := hp (.tick n) (by simp)
      cases this
    · intro l' s' hr
      obtain ⟨a, _, _⟩ := stuck_for_ever h1 hr
      exact ⟨a.1, a.2.2⟩

/-- C50.  Partial: with at most 64 hosts and rounds that do not overlap, the loop never waits for the debouncer: at most two steps of the aggregation loop and the debouncer,
for which no one else is needed, bring the loop back to its `select` (or to its end) with the debouncer not waiting. -/
theorem C50_hosts_partial {clock : Int} {hosts : Nat} {l : List Lab} {s : Sys} (h : run (init clock hosts) l = some s) (hr : RoundByRound hosts (init clock hosts) l)
    (hh : hosts ≤ 64) : ∃ l' s', l'.length ≤ 2 ∧ (∀ x ∈ l', x ∈ [Lab.request, .reply, .stopped, .fire]) ∧ run s l' = some s' ∧
      (s'.main = .idle ∧ s'.deb ≠ .sending ∨ s'.main = .stopped) := by
  refine C50_partial h ?_
  rw [balance h]
  have := (few_run h hr).all
  unfold inFlight at this
  omega

namespace Sample
/-- two hosts answer, and the debouncer lets the loop recalculate. -/
def round : List Lab := [.deliver, .deliver, .consume, .request, .consume, .request, .take, .check, .take, .check, .sleep, .advance 3000000000, .wake, .check, .fire]
end Sample

/-- a case that meets the hypotheses: two rounds, and the second is under way. -/
example : ∃ s, run (init 5 2) (Sample.round ++ .tick 2 :: [.deliver, .consume]) = some s ∧
    RoundByRound 2 (init 5 2) (Sample.round ++ .tick 2 :: [.deliver, .consume]) ∧ s.main = .requesting := by
  refine ⟨_, rfl, ?_, rfl⟩
  intro pre n post e
  have hn : ∀ (a b : List Lab) (n m : Nat) (c d : List Lab), (∀ k, Lab.tick k ∉ a) → (∀ k, Lab.tick k ∉ c) → a ++ .tick n :: c = b ++ .tick m :: d → b = a ∧ m = n := by
    intro a b n m c d ha hc he
    rcases List.append_eq_append_iff.1 he with ⟨t, h1, h2⟩ | ⟨t, h1, h2⟩
    · cases t with
      | nil => simp at h1 h2; exact ⟨h1, h2.1.symm⟩
      | cons x t =>
        simp only [List.cons_append, List.cons.injEq] at h2
        exact absurd (by rw [h2.2]; simp) (hc m)
    · cases t with
      | nil => simp at h1 h2; exact ⟨h1.symm, h2.1⟩
      | cons x t =>
        simp only [List.cons_append, List.cons.injEq] at h2
        exact absurd (by rw [h1, ← h2.1]; simp) (ha m)
  obtain ⟨rfl, rfl⟩ := hn _ _ _ _ _ _ (by simp [Sample.round]) (by simp) e
  refine ⟨rfl, ?_⟩
  intro s hs
  have : run (init 5 2) Sample.round = some s := hs
  have hs' : ∃ s, run (init 5 2) Sample.round = some s ∧ RoundSettled s := ⟨_, rfl, rfl, rfl, rfl, rfl, by decide +kernel⟩
  obtain ⟨s1, e1, e2⟩ := hs'
  rw [this] at e1; cases e1; exact e2

end HdLoop
