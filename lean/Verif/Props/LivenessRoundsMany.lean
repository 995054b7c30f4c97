import Verif.Props.LivenessHealthdMany
import Verif.Props.LivenessRoundsFew
/-!
# C122 with many hosts: the bound of `C122_few` is exact
-/
open Spec

namespace Rounds

/-- no goroutine of a round can do anything. -/
def Quiet (s : Sys) : Prop := ∀ (r : Nat) (y : Round), s.rounds[r]? = some y → y.unspawned = [] ∧ (y.polling = [] ∨ ¬ s.chan.length < HdLoop.bufferSize) ∧
  (y.polling = [] → y.finished = false → ¬ s.chan.length < HdLoop.bufferSize)

/-- from a state with one round, in which the aggregation goroutine waits for ever, the goroutines of the round proceed until they cannot any more. -/
theorem quiet_reached : ∀ (k : Nat) (s : Sys) (y : Round), HdLoop.Stuck s.rest → s.rounds = [y] → 2 * y.left + (if y.finished then 0 else 1) ≤ k →
    ∃ l s' y', run s l = some s' ∧ s'.rest = s.rest ∧ s'.rounds = [y'] ∧ s'.taken = s.taken ∧ Quiet s' := by
  intro k
  induction k with
  | zero =>
    intro s y _ hy hk
    have h1 : y.finished = true := by
      by_contra h; simp [h] at hk
    have h2 : y.left = 0 := by omega
    unfold Round.left at h2
    have h3 : y.unspawned = [] := List.length_eq_zero_iff.1 (by omega)
    have h4 : y.polling = [] := List.length_eq_zero_iff.1 (by omega)
    refine ⟨[], s, y, rfl, rfl, hy, rfl, fun r z hz => ?_⟩
    rw [hy] at hz
    cases r with
    | zero =>
      have : y = z := by simpa using hz
      subst this
      exact ⟨h3, .inl h4, fun _ h => by rw [h1] at h; cases h⟩
    | succ r => simp at hz
  | succ k ih =>
    intro s y hst hy hk
    have h0 : s.rounds[0]? = some y := by rw [hy]; rfl
    by_cases hu : y.unspawned = []
    · by_cases hc : s.chan.length < HdLoop.bufferSize
      · by_cases hp : y.polling = []
        · by_cases hf : y.finished = false
          · have hs : step s (.finish 0) = some { s with rounds := [{ y with finished := true }], chan := s.chan ++ [(0, none)] } := by
              simp [step, hu, hp, hf, hc, setRound, hy]
            obtain ⟨l, s', y', h1, h2, h3, h4, h5⟩ := ih { s with rounds := [{ y with finished := true }], chan := s.chan ++ [(0, none)] } { y with finished := true } hst rfl (by
              simp only [Round.left, hu, hp] at hk ⊢; simp)
            exact ⟨[.finish 0] ++ l, s', y', run_append (run_one hs) h1, h2, h3, h4, h5⟩
          · refine ⟨[], s, y, rfl, rfl, hy, rfl, fun r z hz => ?_⟩
            rw [hy] at hz
            cases r with
            | zero =>
              have : y = z := by simpa using hz
              subst this
              exact ⟨hu, .inl hp, fun _ h => absurd h hf⟩
            | succ r => simp at hz
        · obtain ⟨hp0, q, hq⟩ := List.exists_cons_of_ne_nil hp
          have hmem : hp0 ∈ y.polling := by rw [hq]; simp
          have hs : step s (.deliver 0 hp0) = some { s with rounds := [{ y with polling := y.polling.erase hp0 }], chan := s.chan ++ [(0, some hp0)] } := by
            simp only [step, h0]
            rw [if_pos ⟨hmem, hc⟩]
            simp [setRound, hy]
          obtain ⟨l, s', y', h1, h2, h3, h4, h5⟩ := ih { s with rounds := [{ y with polling := y.polling.erase hp0 }], chan := s.chan ++ [(0, some hp0)] } { y with polling := y.polling.erase hp0 } hst rfl (by
            have := List.length_erase_of_mem hmem
            have := List.length_pos_of_mem hmem
            simp only [Round.left] at hk ⊢; omega)
          exact ⟨[.deliver 0 hp0] ++ l, s', y', run_append (run_one hs) h1, h2, h3, h4, h5⟩
      · refine ⟨[], s, y, rfl, rfl, hy, rfl, fun r z hz => ?_⟩
        rw [hy] at hz
        cases r with
        | zero =>
          have : y = z := by simpa using hz
          subst this
          exact ⟨hu, .inr hc, fun _ _ => hc⟩
        | succ r => simp at hz
    · obtain ⟨hp0, q, hq⟩ := List.exists_cons_of_ne_nil hu
      have hmem : hp0 ∈ y.unspawned := by rw [hq]; simp
      have hs : step s (.spawn 0 hp0) = some { s with rounds := [{ y with unspawned := y.unspawned.erase hp0, polling := y.polling ++ [hp0] }] } := by
        simp only [step, h0]
        rw [if_pos hmem]
        simp [setRound, hy]
      obtain ⟨l, s', y', h1, h2, h3, h4, h5⟩ := ih { s with rounds := [{ y with unspawned := y.unspawned.erase hp0, polling := y.polling ++ [hp0] }] } { y with unspawned := y.unspawned.erase hp0, polling := y.polling ++ [hp0] } hst rfl (by
        have := List.length_erase_of_mem hmem
        have := List.length_pos_of_mem hmem
        simp only [Round.left, List.length_append, List.length_cons, List.length_nil] at hk ⊢; omega)
      exact ⟨[.spawn 0 hp0] ++ l, s', y', run_append (run_one hs) h1, h2, h3, h4, h5⟩

/-- when all wait, only the callers and the clock are left. -/
theorem quiet_none {s : Sys} (hs : HdLoop.Stuck s.rest) (hq : Quiet s) (l : Lab) (hl : ∀ z, l = .other z → z.inner = true) : step s l = none := by
  have hm : s.rest.main ≠ .idle := by rw [hs.1]; simp
  cases l with
  | tick => simp [step, hm]
  | spawn r hp =>
    simp only [step]
    split
    · next y hy => rw [if_neg (by rw [(hq r y hy).1]; simp)]
    · rfl
  | deliver r hp =>
    simp only [step]
    split
    · next y hy =>
      rw [if_neg]
      rintro ⟨h1, h2⟩
      rcases (hq r y hy).2.1 with h | h
      · rw [h] at h1; cases h1
      · exact h h2
    · rfl
  | finish r =>
    simp only [step]
    split
    · next y hy => rw [if_neg]; rintro ⟨_, h2, h3, h4⟩; exact (hq r y hy).2.2 h2 h3 h4
    · rfl
  | consume =>
    simp only [step]
    split
    · rw [if_neg hm]
    · rfl
  | allIn =>
    simp only [step]
    split
    · rw [if_neg hm]
    · rfl
  | other z =>
    simp only [step]
    rw [HdLoop.stuck_none hs z (hl z rfl)]
    simp

theorem rounds_grow {s s' : Sys} {l : Lab} (h : step s l = some s') :
    s.rounds.length ≤ s'.rounds.length ∧ (l = .tick → s'.rounds.length = s.rounds.length + 1) := by
  cases l with
  | tick => simp only [step] at h; split at h <;> cases h; simp
  | other z =>
    simp only [step] at h
    split at h <;> [cases h; skip]
    obtain ⟨z, _, rfl⟩ := Option.map_eq_some_iff.1 h
    exact ⟨le_refl _, fun h => by cases h⟩
  | _ =>
    simp only [step] at h
    split at h <;> [skip; cases h]
    split at h <;> cases h
    exact ⟨by simp [setRound], fun h => by cases h⟩

theorem taken_grow {s s' : Sys} {l : Lab} (h : step s l = some s') : s.taken ⊆ s'.taken := by
  cases l with
  | tick => simp only [step] at h; split at h <;> cases h; exact fun _ h => h
  | other z =>
    simp only [step] at h
    split at h <;> [cases h; skip]
    obtain ⟨z, _, rfl⟩ := Option.map_eq_some_iff.1 h
    exact fun _ h => h
  | _ =>
    simp only [step] at h
    split at h <;> [skip; cases h]
    split at h <;> cases h
    first | exact fun _ h => h | exact List.subset_append_left _ _

/-- with 66 hosts or more there is a fair execution in which no round begins but the first, which does not come to its end. -/
theorem C122_many_false (clock : Int) (hc : 0 < clock) (hosts : List Str) (hh : 66 ≤ hosts.length) :
    ∃ x : Exec Rounds.step (Rounds.init clock hosts), RoundsFair x ∧ TicksSettled x ∧ (∀ n, x.lab n ≠ some (.other .stop)) ∧
      (∀ n, x.lab n ≠ some .tick) ∧ ∀ n r, (r, none) ∉ (x.st n).taken := by
  obtain ⟨l1, s1, hr1, hs1, _, hstop, hlen, htaken⟩ := deadlock_reached clock hc hosts hh
  have hs1 : HdLoop.Stuck s1.rest := hs1
  obtain ⟨y1, hy1⟩ := List.length_eq_one_iff.1 hlen
  obtain ⟨l2, s2, y2, hr2, hrest, hy2, ht2, hq2⟩ := quiet_reached _ s1 y1 hs1 hy1 (le_refl _)
  have hr := run_append hr1 hr2
  let ls := l1 ++ l2
  let f : Nat → Lab := fun n => ls[n]?.getD (.other (.advance 1))
  let x := Exec.follow step (init clock hosts) f
  have hf : ∀ i l, ls[i]? = some l → f i = l := fun i l h => by simp [f, h]
  have hg : ∀ i, ls.length ≤ i → f i = .other (.advance 1) := fun i h => by simp [f, List.getElem?_eq_none h]
  obtain ⟨h1, h2⟩ := Exec.follow_run step (init clock hosts) f ls hr hf
  have hstep : ∀ s : Sys, step s (.other (.advance 1)) = some { s with rest := { s.rest with clock := s.rest.clock + 1 } } := fun s => by
    simp [step, aboutPolls, HdLoop.step]
  have hinv : ∀ k : Nat, HdLoop.Stuck (x.st (ls.length + k)).rest ∧ (x.st (ls.length + k)).rest.stop = .notCalled ∧ Quiet (x.st (ls.length + k)) ∧
      (x.st (ls.length + k)).rest.clock = s2.rest.clock + k ∧ (x.st (ls.length + k)).rounds = [y2] ∧ (x.st (ls.length + k)).taken = s1.taken := by
    intro k
    induction k with
    | zero =>
      rw [Nat.add_zero, show x.st ls.length = s2 from h1]
      refine ⟨by rw [hrest]; exact hs1, by rw [hrest]; exact hstop, hq2, by simp, hy2, ht2⟩
    | succ k ih =>
      obtain ⟨i1, i2, i3, i4, i5, i6⟩ := ih
      have := (Exec.follow_step step (init clock hosts) f (ls.length + k) (by rw [hg _ (by omega)]; exact hstep _)).1
      rw [show ls.length + (k + 1) = ls.length + k + 1 by omega, show x.st (ls.length + k + 1) = _ from this]
      refine ⟨i1, i2, i3, ?_, i5, i6⟩
      show (x.st (ls.length + k)).rest.clock + 1 = _
      rw [i4]; push_cast; omega
  have hinv' : ∀ m, ls.length ≤ m → HdLoop.Stuck (x.st m).rest ∧ Quiet (x.st m) := fun m hm => by
    obtain ⟨k, rfl⟩ := Nat.exists_eq_add_of_le hm
    exact ⟨(hinv k).1, (hinv k).2.2.1⟩
  have hnot : ∀ m, ls.length ≤ m → ∀ l : Lab, (∀ z, l = .other z → z.inner = true) → ¬ (step (x.st m) l).isSome := fun m hm l hl => by
    rw [quiet_none (hinv' m hm).1 (hinv' m hm).2 l hl]; simp
  have weak : ∀ A : Lab → Prop, (∀ l, A l → ∀ z, l = .other z → z.inner = true) → x.WeakFair A := fun A hA n hc => by
    obtain ⟨l, hl, h⟩ := hc (max n ls.length) (le_max_left _ _)
    exact absurd h (hnot _ (le_max_right _ _) l (hA l hl))
  have strong : ∀ A : Lab → Prop, (∀ l, A l → ∀ z, l = .other z → z.inner = true) → x.StrongFair A := fun A hA hc => by
    obtain ⟨m, hm, l, hl, h⟩ := hc ls.length
    exact absurd h (hnot _ hm l (hA l hl))
  have hlens : ∀ n m, n ≤ m → (x.st n).rounds.length ≤ (x.st m).rounds.length := by
    intro n m hm
    induction m, hm using Nat.le_induction with
    | base => exact le_refl _
    | succ m hm ih =>
      rcases x.cases_lab m with ⟨_, e⟩ | ⟨l, _, e⟩
      · rw [e]; exact ih
      · exact ih.trans (rounds_grow e).1
  have hnt : ∀ n, x.lab n ≠ some .tick := fun n hn => by
    have a := (rounds_grow (x.next n _ hn)).2 rfl
    have b := hlens 0 n (by omega)
    have c := hlens (n + 1) (ls.length + (n + 1)) (by omega)
    rw [(hinv (n + 1)).2.2.2.2.1] at c
    rw [x.start] at b
    simp only [init, List.length_cons, List.length_nil] at b c
    omega
  refine ⟨x, ⟨?_, weak _ ?_, weak _ ?_, weak _ ?_, weak _ ?_, weak _ ?_, fun r hp => weak _ ?_, fun r hp => strong _ ?_, fun r => strong _ ?_, strong _ ?_,
    strong _ ?_⟩, fun n hn => absurd hn (hnt n), fun n hn => ?_, hnt, fun n r hn => ?_⟩
  · intro t
    refine ⟨ls.length + (t - s2.rest.clock).toNat, ?_⟩
    rw [(hinv _).2.2.2.1]; omega
  · rintro l (rfl | rfl) z hz <;> cases hz <;> rfl
  · rintro l rfl z hz; cases hz; rfl
  · rintro l rfl z hz; cases hz; rfl
  · rintro l rfl z hz; cases hz; rfl
  · rintro l rfl z hz; cases hz; rfl
  · rintro l rfl z hz; cases hz
  · rintro l rfl z hz; cases hz
  · rintro l rfl z hz; cases hz
  · rintro l (rfl | rfl) z hz <;> cases hz
  · rintro l rfl z hz; cases hz
  · refine HdLoop.stop_unused (coarse x) (fun n => ⟨ls.length + n, by omega, (hinv n).2.1⟩) n ?_
    show (x.lab n).bind (fun l => (l.view hosts).head?) = some .stop
    rw [hn]; rfl
  · have hmono : ∀ n m, n ≤ m → (x.st n).taken ⊆ (x.st m).taken := by
      intro n m hm
      induction m, hm using Nat.le_induction with
      | base => exact fun _ h => h
      | succ m hm ih =>
        rcases x.cases_lab m with ⟨_, e⟩ | ⟨l, _, e⟩
        · rw [e]; exact ih
        · exact fun a ha => taken_grow e (ih ha)
    have := hmono n (ls.length + n) (by omega) hn
    rw [(hinv n).2.2.2.2.2] at this
    cases htaken _ this

/-- **C122**: the bound is exact: in every fair execution with rounds that do not overlap, and without `Stop`, rounds begin again and again, if and only if there are at
most 65 hosts. -/
theorem C122_again_iff (clock : Int) (hc : 0 < clock) (hosts : List Str) :
    (∀ x : Exec Rounds.step (Rounds.init clock hosts), RoundsFair x → TicksSettled x → (∀ n, x.lab n ≠ some (.other .stop)) →
      ∀ n, ∃ m, n ≤ m ∧ x.lab m = some .tick) ↔ hosts.length ≤ 65 := by
  constructor
  · intro h
    by_contra hh
    obtain ⟨x, F, ht, hns, hno, _⟩ := C122_many_false clock hc hosts (by omega)
    obtain ⟨m, _, hm⟩ := h x F ht hns 0
    exact hno m hm
  · intro hh x F ht hns n
    exact C122_again x F (few_not_stuck x hh ht) hns n

/-- … and every round comes to its end, if and only if there are at most 65 hosts. -/
theorem C122_ends_iff (clock : Int) (hc : 0 < clock) (hosts : List Str) :
    (∀ x : Exec Rounds.step (Rounds.init clock hosts), RoundsFair x → TicksSettled x → (∀ n, x.lab n ≠ some (.other .stop)) →
      ∀ n r, r < (x.st n).rounds.length → ∃ m, n ≤ m ∧ (r, none) ∈ (x.st m).taken ∧ ∀ hp ∈ hosts, (r, some hp) ∈ (x.st m).taken) ↔ hosts.length ≤ 65 := by
  constructor
  · intro h
    by_contra hh
    obtain ⟨x, F, ht, hns, _, hno⟩ := C122_many_false clock hc hosts (by omega)
    obtain ⟨m, _, hm, _⟩ := h x F ht hns 0 0 (by rw [x.start]; simp [init])
    exact hno m 0 hm
  · intro hh x F ht hns n r hr
    exact C122_few x F hh ht hns n r hr

/-- a case: seventy hosts. -/
example : ∃ x : Exec Rounds.step (Rounds.init 1767225600000000000 (List.replicate 70 (bs "a:1"))), RoundsFair x ∧ TicksSettled x ∧ (∀ n, x.lab n ≠ some (.other .stop)) ∧
    (∀ n, x.lab n ≠ some .tick) ∧ ∀ n r, (r, none) ∉ (x.st n).taken :=
  C122_many_false _ (by decide) _ (by simp)

end Rounds
