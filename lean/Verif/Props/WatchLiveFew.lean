import Verif.Props.WatchLiveCase
import Verif.Props.LivenessRoundsFew
/-!
# C122 with few hosts: what was answered is shown, without a condition on the debouncer
-/
open Spec Healthd

namespace Watch

section
variable {sort : List IntAgg → List IntAgg} {lo : Int → Int} {d : Int} {P : List Proc} {clock : Int} {hostPorts : List Str}
  {X : WatchExec sort lo d P clock hostPorts}

/-- what is in the channel, or was, was sent by a poll. -/
theorem live_sent (n : Nat) : ∀ m ∈ (X.st n).taken ++ (X.st n).chan, ∀ z, m.2 = some z → Item.go (.deliver m.1 z.1.hostPort) ∈ (X.st n).past := by
  induction n with
  | zero => rw [X.start]; intro m hm; simp [Watch.start] at hm
  | succ n ih =>
    cases hl : X.lab n with
    | none => rw [X.rest n hl]; exact ih
    | some x =>
      have hs := X.next n x hl
      generalize X.st (n + 1) = s' at hs
      have keep : ∀ m ∈ (X.st n).taken ++ (X.st n).chan, ∀ z, m.2 = some z → Item.go (.deliver m.1 z.1.hostPort) ∈ s'.past := by
        intro m hm z hz
        rw [hs.past]; exact List.mem_append_left _ (ih m hm z hz)
      cases hs with
      | act => exact keep
      | serve => exact keep
      | deliver h hk =>
        intro m hm z hz
        simp only [← List.append_assoc] at hm
        rcases List.mem_append.1 hm with hm | hm
        · exact keep m hm z hz
        · cases List.mem_singleton.1 hm
          cases hz
          rw [hk.host]
          simp
      | finish h =>
        intro m hm z hz
        simp only [← List.append_assoc] at hm
        rcases List.mem_append.1 hm with hm | hm
        · exact keep m hm z hz
        · cases List.mem_singleton.1 hm
          cases hz
      | tick => exact keep
      | consume h =>
        intro m hm z hz
        refine keep m ?_ z hz
        rw [h]; simpa using hm
      | recalculate h =>
        cases h with
        | allIn h =>
          intro m hm z hz
          refine keep m ?_ z hz
          rw [h]; simpa using hm
        | fire => exact keep
      | quiet => exact keep

/-- if each tick finds the last round settled, no poll outlasts the time between two rounds. -/
theorem settled_in_time (ht : TicksSettled X.loop) (n : Nat) : InTime hostPorts (X.st n).past := by
  induction n with
  | zero => rw [X.start]; intro a b e; simp [Watch.start] at e
  | succ n ih =>
    cases hl : X.lab n with
    | none => rw [X.rest n hl]; exact ih
    | some x =>
      intro a b e
      rw [(X.next n x hl).past] at e
      rcases snoc_split e with ⟨_, rfl, rfl⟩ | ⟨b', _, h1⟩
      · have hp0 : (X.st n).loop.polls = 0 := (ht n (by show (match X.lab n with | some (.go l) => some l | _ => none) = _; rw [hl])).1
        have hi := (live_reach (X := X) n).inv
        intro r hr hp hm
        have hlt : r < (X.st n).loop.rounds.length := by rw [hi.count]; omega
        have hy := List.getElem?_eq_getElem hlt
        generalize (X.st n).loop.rounds[r] = y at hy
        have hy0 : y.polls = 0 := by
          have : y.polls ≤ (X.st n).loop.polls := List.le_sum_of_mem (List.mem_map_of_mem (List.mem_of_getElem? hy))
          omega
        have hu : y.unspawned = [] := List.eq_nil_of_length_eq_zero (by unfold Rounds.Round.polls at hy0; omega)
        have hq : y.polling = [] := List.eq_nil_of_length_eq_zero (by unfold Rounds.Round.polls at hy0; omega)
        have hall := (hi.rounds.rounds r y hy).all
        rw [hu, hq, List.nil_append, List.nil_append] at hall
        have ha := hall.mem_iff.2 ((hosts_mem hostPorts hp).2 hm)
        obtain ⟨k, hk, hk2⟩ := List.mem_filterMap.1 ha
        split at hk2 <;> [skip; cases hk2]
        next hkr =>
        rw [show (X.st n).loop.log = ((X.st n).taken ++ (X.st n).chan).map key by
          unfold Rounds.Sys.log; rw [hi.chan, hi.taken, List.map_append]] at hk
        obtain ⟨m, hmm, rfl⟩ := List.mem_map.1 hk
        obtain ⟨z, hz, rfl⟩ := Option.map_eq_some_iff.1 hk2
        subst hkr
        exact live_sent n m hmm z hz
      · exact ih a b' h1

end

/-- **C122** with at most 65 hosts and rounds that do not overlap, without a condition on the debouncer: what a process had emitted when it made an answer that got through is shown: the round comes to its end, and from then on, whenever healthd
recalculates, the numbers that it shows for an interval (that no purge has removed) count at least what the process had emitted in it (provided of every process healthd received an answer that still had the interval and all this in it). -/
theorem C122_shown_few {sort : List IntAgg → List IntAgg} (hsort : SortsByStart sort) {lo : Int → Int} {d : Int} {P : List Proc} {clock : Int} {hostPorts : List Str}
    (X : WatchExec sort lo d P clock hostPorts) (F : RoundsFair X.loop) (hh : (keys hostPorts).length ≤ 65) (ht : TicksSettled X.loop)
    (hns : ∀ n, X.lab n ≠ some (.go (.other .stop))) (hok : ∀ n, Ordinary d P (X.st n).past)
    {n r : Nat} {x : PollResponse} {o : Origin} (hm : (r, some (x, some o)) ∈ (X.st n).chan) :
    ∃ m, n ≤ m ∧ X.lab m = some (.go .allIn) ∧ (X.st (m + 1)).taken = (X.st m).taken ++ [(r, none)] ∧
      ∀ k, m ≤ k → X.lab k = some (.go .allIn) ∨ X.lab k = some (.go (.other .fire)) → ∀ t : Time, NeverStale d (events d (X.st k).done) t →
        (∀ i p, P[i]? = some p → ∀ y ∈ histOf i (X.st k).past, zoneId lo t.ns (p.zone y.1.loc t.ns) = some t.loc) →
        (∀ i p, P[i]? = some p → Held d t.ns p i (X.st k).taken) →
        ((List.range P.length).flatMap (fun i => madeIn d t.ns (histOf i (X.st k).past))).length < 2 ^ 63 →
        madeIn d t.ns o.hist ≠ [] →
        (∀ a ∈ (X.st (k + 1)).data.intervalAggregations, a.start = t → ∀ c, Counts c → ∀ v, expected c (madeIn d t.ns o.hist) = some v →
          ∃ v', value a c = some v' ∧ v ≤ v') ∧
        ((∃ a ∈ (X.st (k + 1)).data.intervalAggregations, a.start = t) ∨
          (((X.st (k + 1)).data.intervalAggregations.length : Int) = 7200000000000 / d ∧ ∀ a ∈ (X.st (k + 1)).data.intervalAggregations, t.ns ≤ a.start.ns)) :=
  C122_shown hsort X F (Rounds.few_not_stuck X.loop hh ht) hns (settled_in_time ht) hok hm

/-- a case of `C122_shown_few`: the execution of `WatchLiveCase` (the other conditions are shown there). -/
example : RoundsFair Forever.forever.loop ∧ (keys [Late.host]).length ≤ 65 ∧ TicksSettled Forever.forever.loop :=
  ⟨Forever.fair, by rw [Forever.keys_host]; decide, fun n h => Rounds.Sample.settled n ((Forever.loop_lab n).symm.trans h)⟩

end Watch
