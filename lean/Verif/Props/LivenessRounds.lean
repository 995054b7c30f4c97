import Verif.Props.LivenessHealthd
import Verif.Props.PollRounds
import Verif.Lemmas.Watch
/-!
# Every round of polls comes to its end, and rounds begin for ever (C122)
-/
open Spec

/-- the scheduling that the theorems assume of healthd with its polls: time goes on; the debouncer and the aggregation goroutine proceed when they can; a round's
goroutine goes on starting polls; every poll ends, and a goroutine that waits to send to `responses` gets its turn; the `select` does not pass over the same
ready case for ever, and the ticker ticks. -/
structure Spec.RoundsFair {clock : Int} {hosts : List Str} (x : Exec Rounds.step (Rounds.init clock hosts)) : Prop where
  time : ∀ t : Int, ∃ m, t ≤ (x.st m).rest.clock
  top : x.WeakFair (fun l => l = .other .take ∨ l = .other .sleep)
  wake : x.WeakFair (fun l => l = .other .wake)
  check : x.WeakFair (fun l => l = .other .check)
  request : x.WeakFair (fun l => l = .other .request)
  reply : x.WeakFair (fun l => l = .other .reply)
  spawn : ∀ r hp, x.WeakFair (fun l => l = .spawn r hp)
  deliver : ∀ r hp, x.StrongFair (fun l => l = .deliver r hp)
  finish : ∀ r, x.StrongFair (fun l => l = .finish r)
  receive : x.StrongFair (fun l => l = .consume ∨ l = .allIn)
  tick : x.StrongFair (fun l => l = .tick)

namespace Rounds
section
variable {clock : Int} {hosts : List Str} {x : Exec Rounds.step (Rounds.init clock hosts)}

theorem inv_at (n : Nat) : Inv hosts (x.st n) := x.invariant (inv_init clock hosts) (fun _ _ _ h hs => step_inv h hs) n

/-- the execution without the contents of the channel. -/
def coarse (x : Exec Rounds.step (Rounds.init clock hosts)) : Exec HdLoop.step (HdLoop.init clock hosts.length) where
  st n := (x.st n).view
  lab n := (x.lab n).bind (fun l => (l.view hosts).head?)
  start := by rw [x.start]; simp [init, Sys.view, withCounts, Sys.polls, Round.polls, HdLoop.init]
  rest n hn := by
    rcases x.cases_lab n with ⟨_, e⟩ | ⟨l, hl, e⟩
    · rw [e]
    · have h := (view_step e).1
      rw [(inv_at n).same] at h
      rw [hl, Option.bind_some] at hn
      have : l.view hosts = [] := by cases hv : l.view hosts with
        | nil => rfl
        | cons a b => rw [hv] at hn; cases hn
      rw [this] at h
      exact (Option.some.inj h).symm
  next n l hn := by
    rcases x.cases_lab n with ⟨e, _⟩ | ⟨l', hl, e⟩
    · rw [e] at hn; cases hn
    · have h := (view_step e).1
      rw [(inv_at n).same] at h
      rw [hl, Option.bind_some] at hn
      have : l'.view hosts = [l] := by cases l' <;> simp [Lab.view] at hn ⊢ <;> exact hn
      rw [this] at h
      unfold HdLoop.run at h
      simpa using h

theorem coarse_weak {A : HdLoop.Lab → Prop} (hA : ∀ l, A l → aboutPolls l = false) (f : x.WeakFair (fun l => ∃ l', A l' ∧ l = .other l')) :
    (coarse x).WeakFair A := by
  intro n hn
  obtain ⟨m, hm, l, ⟨l', hl', rfl⟩, hl⟩ := f n (fun m hm => by
    obtain ⟨l, hl, hs⟩ := hn m hm
    refine ⟨_, ⟨l, hl, rfl⟩, ?_⟩
    have hs : (HdLoop.step (x.st m).view l).isSome := hs
    unfold Sys.view at hs
    rw [other_step _ _ _ _ (hA l hl), Option.isSome_map] at hs
    simp only [step, hA l hl, Bool.false_eq_true, if_false, Option.isSome_map]
    exact hs)
  exact ⟨m, hm, l', hl', by simp [coarse, hl, Lab.view]⟩

theorem coarse_runs (F : RoundsFair x) : HdRuns (coarse x) where
  time := F.time
  top := coarse_weak (by rintro l (rfl | rfl) <;> rfl) (by
    have : (fun l => ∃ l', (l' = .take ∨ l' = .sleep) ∧ l = Lab.other l') = (fun l => l = .other .take ∨ l = .other .sleep) := by
      funext l; simp
    rw [this]; exact F.top)
  wake := coarse_weak (by rintro l rfl; rfl) (by simpa using F.wake)
  check := coarse_weak (by rintro l rfl; rfl) (by simpa using F.check)
  request := coarse_weak (by rintro l rfl; rfl) (by simpa using F.request)
  reply := coarse_weak (by rintro l rfl; rfl) (by simpa using F.reply)

/-- the aggregation goroutine comes back to its `select`. -/
theorem idle_again (F : RoundsFair x) (ns : ∀ n, ¬ HdLoop.Stuck (x.st n).rest) (hns : ∀ n, x.lab n ≠ some (.other .stop)) (n : Nat) :
    ∃ m, n ≤ m ∧ (x.st m).rest.main = .idle := by
  refine HdLoop.idle_often' (x := coarse x) (coarse_runs F) (fun n h => ns n h) (fun n h => ?_) n
  have h : (x.lab n).bind (fun l => (l.view hosts).head?) = some .stop := h
  cases hl : x.lab n with
  | none => rw [hl] at h; cases h
  | some l =>
    rw [hl, Option.bind_some] at h
    cases l <;> simp [Lab.view] at h
    subst h
    exact hns n hl

/-! ### What is sent is received -/

theorem log_prefix {n m : Nat} (h : n ≤ m) : (x.st n).log <+: (x.st m).log := by
  induction m, h using Nat.le_induction with
  | base => exact List.prefix_rfl
  | succ m _ ih =>
    refine ih.trans ?_
    rcases x.cases_lab m with ⟨_, e⟩ | ⟨l, _, e⟩
    · rw [e]; exact List.prefix_rfl
    · rw [Watch.loop_log e]; exact List.prefix_append ..

/-- how the channel and what was received from it change. -/
theorem chan_step {s s' : Sys} {l : Lab} (h : step s l = some s') :
    ((l = .consume ∨ l = .allIn) ∧ ∃ m, s.chan = m :: s'.chan ∧ s'.taken = s.taken ++ [m]) ∨
    (l ≠ .consume ∧ l ≠ .allIn ∧ s'.taken = s.taken ∧ s.chan <+: s'.chan) := by
  cases l with
  | consume => obtain ⟨r, hp, h1, h2⟩ := Watch.loop_consume h; exact .inl ⟨.inl rfl, _, h1, h2⟩
  | allIn => obtain ⟨r, h1, h2⟩ := Watch.loop_allIn h; exact .inl ⟨.inr rfl, _, h1, h2⟩
  | deliver r hp => obtain ⟨_, h1, h2⟩ := Watch.loop_deliver h; exact .inr ⟨by simp, by simp, h2, h1 ▸ List.prefix_append ..⟩
  | finish r => obtain ⟨h1, h2⟩ := Watch.loop_finish h; exact .inr ⟨by simp, by simp, h2, h1 ▸ List.prefix_append ..⟩
  | tick => obtain ⟨h1, h2⟩ := Watch.loop_quiet h (.inr (.inl rfl)); exact .inr ⟨by simp, by simp, h2, h1 ▸ List.prefix_rfl⟩
  | spawn r hp => obtain ⟨h1, h2⟩ := Watch.loop_quiet h (.inl rfl); exact .inr ⟨by simp, by simp, h2, h1 ▸ List.prefix_rfl⟩
  | other l =>
    obtain ⟨h1, h2⟩ := Watch.loop_quiet h (by cases l <;> simp [Watch.quiet])
    exact .inr ⟨by simp, by simp, h2, h1 ▸ List.prefix_rfl⟩

theorem taken_prefix {n m : Nat} (h : n ≤ m) : (x.st n).taken <+: (x.st m).taken := by
  induction m, h using Nat.le_induction with
  | base => exact List.prefix_rfl
  | succ m _ ih =>
    refine ih.trans ?_
    rcases x.cases_lab m with ⟨_, e⟩ | ⟨l, _, e⟩
    · rw [e]; exact List.prefix_rfl
    · rcases chan_step e with ⟨_, z, _, h2⟩ | ⟨_, _, h2, _⟩
      · rw [h2]; exact List.prefix_append ..
      · rw [h2]; exact List.prefix_rfl

/-- something is received. -/
theorem receives (F : RoundsFair x) (ns : ∀ n, ¬ HdLoop.Stuck (x.st n).rest) (hns : ∀ n, x.lab n ≠ some (.other .stop)) {n : Nat} (h : (x.st n).chan ≠ []) :
    ∃ m, n ≤ m ∧ ∃ z, (x.st m).chan = z :: (x.st (m + 1)).chan ∧ (x.st (m + 1)).taken = (x.st m).taken ++ [z] := by
  by_contra hno
  have hno : ∀ m, n ≤ m → ¬ (x.lab m = some .consume ∨ x.lab m = some .allIn) := by
    intro m hm g
    refine hno ⟨m, hm, ?_⟩
    rcases g with g | g <;>
    · rcases chan_step (x.next m _ g) with ⟨_, h1⟩ | ⟨h1, h2, _⟩
      · exact h1
      · simp at h1 h2
  have hP : ∀ m, n ≤ m → (x.st m).chan ≠ [] := by
    intro m hm
    induction m, hm using Nat.le_induction with
    | base => exact h
    | succ m hm ih =>
      rcases x.cases_lab m with ⟨_, e⟩ | ⟨l, hl, e⟩
      · rw [e]; exact ih
      · rcases chan_step e with ⟨h1, _⟩ | ⟨_, _, _, h4⟩
        · exact absurd (by rcases h1 with rfl | rfl <;> simp [hl]) (hno m hm)
        · intro h5; rw [h5] at h4; exact ih (List.prefix_nil.1 h4)
  obtain ⟨m, hm, l, hl, hlab⟩ := F.receive (fun k => by
    obtain ⟨j, hj, hi⟩ := idle_again F ns hns (max n k)
    refine ⟨j, by omega, ?_⟩
    cases hc : (x.st j).chan with
    | nil => exact absurd hc (hP j (by omega))
    | cons z q =>
      obtain ⟨r, z⟩ := z
      cases z with
      | none => exact ⟨_, .inr rfl, by simp [step, hc, hi]⟩
      | some hp => exact ⟨_, .inl rfl, by simp [step, hc, hi]⟩) n
  exact hno m hm (by rcases hl with rfl | rfl <;> simp [hlab])

/-- everything sent is received. -/
theorem received (F : RoundsFair x) (ns : ∀ n, ¬ HdLoop.Stuck (x.st n).rest) (hns : ∀ n, x.lab n ≠ some (.other .stop)) (n : Nat) :
    ∃ m, n ≤ m ∧ (x.st n).log <+: (x.st m).taken := by
  obtain ⟨m, hm, h⟩ := Exec.reaches (f := fun j => (x.st j).taken.length) (fun j => (taken_prefix (by omega)).length_le) (n := n) (N := (x.st n).log.length) (by
    intro m hm hlt
    have h1 := (log_prefix (x := x) hm).length_le
    obtain ⟨k, hk, z, _, h3⟩ := receives F ns hns (n := m) (by
      intro h0
      have h1' : (x.st n).log.length ≤ ((x.st m).taken ++ (x.st m).chan).length := h1
      rw [h0, List.append_nil] at h1'
      have hlt : (x.st m).taken.length < _ := hlt
      omega)
    have h4 := (taken_prefix (x := x) hk).length_le
    refine ⟨k + 1, by omega, ?_⟩
    show (x.st m).taken.length < (x.st (k + 1)).taken.length
    rw [h3]; simp; omega)
  refine ⟨m, hm, ?_⟩
  have h1 := log_prefix (x := x) hm
  have h2 : (x.st m).taken <+: (x.st m).log := List.prefix_append ..
  exact List.prefix_of_prefix_length_le h1 h2 (h m (Nat.le_refl _))

/-- there is room in the channel again and again. -/
theorem room_again (F : RoundsFair x) (ns : ∀ n, ¬ HdLoop.Stuck (x.st n).rest) (hns : ∀ n, x.lab n ≠ some (.other .stop)) (n : Nat) :
    ∃ m, n ≤ m ∧ (x.st m).chan.length < HdLoop.bufferSize := by
  by_cases h : (x.st n).chan = []
  · exact ⟨n, Nat.le_refl _, by rw [h]; decide⟩
  · obtain ⟨m, hm, z, h1, _⟩ := receives F ns hns h
    refine ⟨m + 1, by omega, ?_⟩
    have := (inv_at (x := x) m).room
    rw [h1, List.length_cons] at this
    omega

/-! ### A round -/

def Round.left (y : Round) : Nat := 2 * y.unspawned.length + y.polling.length

/-- what can happen to a round. -/
theorem round_step {s s' : Sys} {l : Lab} (h : step s l = some s') {r : Nat} {y : Round} (hy : s.rounds[r]? = some y) :
    ∃ y', s'.rounds[r]? = some y' ∧
      (y' = y ∧ (∀ hp, l ≠ .spawn r hp) ∧ (∀ hp, l ≠ .deliver r hp) ∧ l ≠ .finish r ∨ y'.left < y.left ∨
        (l = .finish r ∧ y'.finished = true)) := by
  cases l with
  | tick =>
    rw [Watch.loop_tick h]
    refine ⟨y, ?_, .inl ⟨rfl, by simp, by simp, by simp⟩⟩
    rw [List.getElem?_append_left (List.getElem?_eq_some_iff.1 hy).1]; exact hy
  | spawn q hp =>
    simp only [step] at h; split at h <;> [skip; cases h]
    rename_i z hz
    split at h <;> cases h
    rename_i hm
    show ∃ y', (setRound s.rounds q _)[r]? = some y' ∧ _
    rw [get_set hz]
    by_cases hq : r = q
    · subst hq
      rw [hy] at hz; cases hz
      refine ⟨_, if_pos rfl, .inr (.inl ?_)⟩
      have := List.length_erase_of_mem hm
      have := List.length_pos_of_mem hm
      simp only [Round.left, List.length_append, List.length_cons, List.length_nil]
      omega
    · exact ⟨y, by rw [if_neg (by simpa using hq)]; exact hy, .inl ⟨rfl, by simp [Ne.symm hq], by simp, by simp⟩⟩
  | deliver q hp =>
    simp only [step] at h; split at h <;> [skip; cases h]
    rename_i z hz
    split at h <;> cases h
    rename_i hm
    show ∃ y', (setRound s.rounds q _)[r]? = some y' ∧ _
    rw [get_set hz]
    by_cases hq : r = q
    · subst hq
      rw [hy] at hz; cases hz
      refine ⟨_, if_pos rfl, .inr (.inl ?_)⟩
      have := List.length_erase_of_mem hm.1
      have := List.length_pos_of_mem hm.1
      simp only [Round.left]
      omega
    · exact ⟨y, by rw [if_neg (by simpa using hq)]; exact hy, .inl ⟨rfl, by simp, by simp [Ne.symm hq], by simp⟩⟩
  | finish q =>
    simp only [step] at h; split at h <;> [skip; cases h]
    rename_i z hz
    split at h <;> cases h
    rename_i hm
    show ∃ y', (setRound s.rounds q _)[r]? = some y' ∧ _
    rw [get_set hz]
    by_cases hq : r = q
    · subst hq
      exact ⟨_, if_pos rfl, .inr (.inr ⟨rfl, rfl⟩)⟩
    · exact ⟨y, by rw [if_neg (by simpa using hq)]; exact hy, .inl ⟨rfl, by simp, by simp, by simp [Ne.symm hq]⟩⟩
  | consume => simp only [step] at h; split at h <;> [skip; cases h]; split at h <;> cases h; exact ⟨y, hy, .inl ⟨rfl, by simp, by simp, by simp⟩⟩
  | allIn => simp only [step] at h; split at h <;> [skip; cases h]; split at h <;> cases h; exact ⟨y, hy, .inl ⟨rfl, by simp, by simp, by simp⟩⟩
  | other l =>
    simp only [step] at h
    split at h <;> [cases h; skip]
    obtain ⟨z, _, rfl⟩ := Option.map_eq_some_iff.1 h
    exact ⟨y, hy, .inl ⟨rfl, by simp, by simp, by simp⟩⟩

/-- the nil of a round is sent. -/
theorem finishes (F : RoundsFair x) (ns : ∀ n, ¬ HdLoop.Stuck (x.st n).rest) (hns : ∀ n, x.lab n ≠ some (.other .stop)) {r : Nat} (k : Nat) :
    ∀ n y, (x.st n).rounds[r]? = some y → y.left = k → ∃ m y', n ≤ m ∧ (x.st m).rounds[r]? = some y' ∧ y'.finished = true := by
  induction k using Nat.strong_induction_on with
  | _ k ih =>
    intro n y hy hk
    by_contra hno
    -- nothing happens to the round
    have hstay : ∀ m, n ≤ m → (x.st m).rounds[r]? = some y ∧ (∀ hp, x.lab m ≠ some (.spawn r hp)) ∧ (∀ hp, x.lab m ≠ some (.deliver r hp)) ∧ x.lab m ≠ some (.finish r) := by
      have hone : ∀ m, n ≤ m → (x.st m).rounds[r]? = some y → (x.st (m + 1)).rounds[r]? = some y ∧
          (∀ hp, x.lab m ≠ some (.spawn r hp)) ∧ (∀ hp, x.lab m ≠ some (.deliver r hp)) ∧ x.lab m ≠ some (.finish r) := by
        intro m hm hy
        rcases x.cases_lab m with ⟨h0, e⟩ | ⟨l, hl, e⟩
        · rw [e, h0]; exact ⟨hy, by simp, by simp, by simp⟩
        · obtain ⟨y', h1, ⟨rfl, h2, h3, h4⟩ | h2 | ⟨rfl, h2⟩⟩ := round_step e hy
          · rw [hl]; exact ⟨h1, by simpa using h2, by simpa using h3, by simpa using h4⟩
          · obtain ⟨j, y'', hj, h3, h4⟩ := ih _ (hk ▸ h2) (m + 1) y' h1 rfl
            exact absurd ⟨j, y'', by omega, h3, h4⟩ hno
          · exact absurd ⟨m + 1, y', by omega, h1, h2⟩ hno
      have hall : ∀ m, n ≤ m → (x.st m).rounds[r]? = some y := by
        intro m hm
        induction m, hm using Nat.le_induction with
        | base => exact hy
        | succ m hm ih2 => exact (hone m hm ih2).1
      exact fun m hm => ⟨hall m hm, (hone m hm (hall m hm)).2⟩
    have hf : y.finished = false := by
      cases hf : y.finished with
      | false => rfl
      | true => exact absurd ⟨n, y, Nat.le_refl _, hy, hf⟩ hno
    by_cases hp : y.polling = []
    · by_cases hu : y.unspawned = []
      · obtain ⟨m, hm, l, rfl, hl⟩ := F.finish r (fun k => by
          obtain ⟨j, hj, hroom⟩ := room_again F ns hns (max n k)
          exact ⟨j, by omega, _, rfl, by simp [step, (hstay j (by omega)).1, hp, hu, hf, hroom]⟩) n
        exact (hstay m hm).2.2.2 hl
      · obtain ⟨h, t, ht⟩ := List.exists_cons_of_ne_nil hu
        obtain ⟨m, hm, l, rfl, hl⟩ := F.spawn r h n (fun j hj => ⟨_, rfl, by simp [step, (hstay j hj).1, ht]⟩)
        exact (hstay m hm).2.1 h hl
    · obtain ⟨h, t, ht⟩ := List.exists_cons_of_ne_nil hp
      obtain ⟨m, hm, l, rfl, hl⟩ := F.deliver r h (fun k => by
        obtain ⟨j, hj, hroom⟩ := room_again F ns hns (max n k)
        exact ⟨j, by omega, _, rfl, by simp [step, (hstay j (by omega)).1, ht, hroom]⟩) n
      exact (hstay m hm).2.2.1 h hl

end

/-- **C122**: every round of polls comes to its end: the loop receives a response of every host and then the nil, and recalculates (unless the aggregation
goroutine and the debouncer come to wait for each other, C50, or `Stop` is called). -/
theorem C122_ends {clock : Int} {hosts : List Str} (x : Exec Rounds.step (Rounds.init clock hosts)) (F : RoundsFair x)
    (ns : ∀ n, ¬ HdLoop.Stuck (x.st n).rest) (hns : ∀ n, x.lab n ≠ some (.other .stop)) (n r : Nat) (hr : r < (x.st n).rounds.length) :
    ∃ m, n ≤ m ∧ (r, none) ∈ (x.st m).taken ∧ ∀ hp ∈ hosts, (r, some hp) ∈ (x.st m).taken := by
  obtain ⟨m, y, hm, hy, hf⟩ := finishes F ns hns _ n _ (List.getElem?_eq_getElem hr) rfl
  obtain ⟨k, hk, hpre⟩ := received F ns hns m
  have hok := (inv_at (x := x) m).rounds r y hy
  refine ⟨k, by omega, hpre.subset ?_, ?_⟩
  · have := hok.nil
    rw [hf, if_pos rfl] at this
    exact List.count_pos_iff.1 (by omega)
  · intro hp hmem
    have := hok.all
    rw [(hok.fin hf).1, (hok.fin hf).2] at this
    have := this.mem_iff.2 hmem
    simp only [List.nil_append, answered, List.mem_filterMap] at this
    obtain ⟨z, hz, he⟩ := this
    split at he <;> [skip; cases he]
    rename_i hzr
    refine hpre.subset ?_
    obtain ⟨z1, z2⟩ := z
    simp only at hzr he
    subst hzr he
    exact hz

/-- **C122**: rounds of polls begin again and again. -/
theorem C122_again {clock : Int} {hosts : List Str} (x : Exec Rounds.step (Rounds.init clock hosts)) (F : RoundsFair x)
    (ns : ∀ n, ¬ HdLoop.Stuck (x.st n).rest) (hns : ∀ n, x.lab n ≠ some (.other .stop)) (n : Nat) : ∃ m, n ≤ m ∧ x.lab m = some .tick := by
  obtain ⟨m, hm, l, rfl, hl⟩ := F.tick (fun k => by
    obtain ⟨j, hj, hi⟩ := idle_again F ns hns k
    exact ⟨j, hj, _, rfl, by simp [step, hi]⟩) n
  exact ⟨m, hm, hl⟩

end Rounds
