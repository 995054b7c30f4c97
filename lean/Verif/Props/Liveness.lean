import Verif.Lemmas.Fairness
import Verif.Props.PollingSink
/-!
# Property C86: what is emitted shows up eventually (polling sink)
The theorems are about all executions without end in which the goroutines are scheduled fairly: `WeakFair` for a goroutine that is not blocked,
`StrongFair` for the cases of a `select` (Go chooses at random among those that are ready).
-/
open Spec

namespace PsSys
variable {a0 : Aggregator}

theorem run_trace (x : Exec PsSys.step (PsSys.init a0)) (n : Nat) : (PsSys.init a0).run (x.trace n) = some (x.st n) := by
  induction n with
  | zero => simp [Exec.trace, PsSys.run, x.start]
  | succ n ih =>
    rw [Exec.trace, PsSys.run_append, ih]
    rcases x.cases_lab n with ⟨e, e'⟩ | ⟨l, e, e'⟩
    · simp [e, PsSys.run, e']
    · simp [e, PsSys.run, e']

/-- the number of emissions received by the worker. -/
def received (x : Exec PsSys.step (PsSys.init a0)) (n : Nat) : Nat := (psEmissions (x.trace n)).length - (x.st n).q.length

theorem q_le (x : Exec PsSys.step (PsSys.init a0)) (n : Nat) : (x.st n).q.length ≤ (psEmissions (x.trace n)).length := by
  obtain ⟨hist, _, h⟩ := C17_nothing_lost a0 _ _ (run_trace x n)
  rw [← h]; simp

open Classical in
theorem step_q {y y' : PsSys} {l : PsLab} (h : y.step l = some y') :
    (psEmissions [l]).length + y.q.length = y'.q.length + (if ∃ t, l = .recv t then 1 else 0) := by
  cases l with
  | emit e => simp only [PsSys.step, Option.some.injEq] at h; subst h; simp [psEmissions]; omega
  | read i => simp only [PsSys.step, Option.some.injEq] at h; subst h; simp [psEmissions]
  | shutdown i => simp only [PsSys.step, Option.some.injEq] at h; subst h; simp [psEmissions]
  | recv t =>
    simp only [PsSys.step] at h
    split at h
    · next hq => obtain ⟨b, hb, rfl⟩ := Option.map_eq_some_iff.1 h; simp [psEmissions, hq]
    · cases h
  | tick t =>
    simp only [PsSys.step] at h
    split at h
    · obtain ⟨b, hb, rfl⟩ := Option.map_eq_some_iff.1 h; simp [psEmissions]
    · cases h
  | request i t =>
    simp only [PsSys.step] at h
    split at h
    · split at h
      · obtain ⟨b, hb, rfl⟩ := Option.map_eq_some_iff.1 h; simp [psEmissions]
      · cases h
    · cases h
  | got i snap => simp only [PsSys.step] at h; split at h <;> simp at h; subst h; simp [psEmissions]
  | done i => simp only [PsSys.step] at h; split at h <;> simp at h; subst h; simp [psEmissions]
  | stopped i => simp only [PsSys.step] at h; split at h <;> simp at h; subst h; simp [psEmissions]

theorem psEmissions_snoc (tr : List PsLab) (l : PsLab) : psEmissions (tr ++ [l]) = psEmissions tr ++ psEmissions [l] := by
  simp [psEmissions]

theorem received_succ (x : Exec PsSys.step (PsSys.init a0)) (n : Nat) :
    received x n ≤ received x (n + 1) ∧ (x.Does (fun l => ∃ t, l = .recv t) n → received x n < received x (n + 1)) := by
  have h1 := q_le x n
  have h2 := q_le x (n + 1)
  rcases x.cases_lab n with ⟨e, e'⟩ | ⟨l, e, e'⟩
  · refine ⟨?_, ?_⟩
    · unfold received; rw [e', Exec.trace, e]; simp
    · rintro ⟨l, _, hl⟩; rw [e] at hl; cases hl
  · have := step_q e'
    unfold received
    rw [Exec.trace, e] at h2 ⊢
    simp only [Option.toList_some, psEmissions_snoc, List.length_append] at h2 ⊢
    refine ⟨by split at this <;> omega, ?_⟩
    rintro ⟨l', hl', hl⟩
    rw [e] at hl; cases hl
    rw [if_pos hl'] at this
    omega

/-- without calls of `ShutdownServer` the worker stays in its loop. -/
structure Up (y : PsSys) : Prop where
  m : 1 ≤ y.agg.maxIntervals
  stoppers : y.stoppers = []
  stopping : y.stopping = []
  acking : y.worker ≠ .acking
  halted : y.worker ≠ .halted

theorem Up.step {y y' : PsSys} {l : PsLab} (u : Up y) (h : y.step l = some y') (hl : ∀ i, l ≠ .shutdown i) : Up y' := by
  refine ⟨PsSys.maxIntervals_step h u.m, ?_, ?_, ?_, ?_⟩
  all_goals
    cases l with
    | emit e => simp only [PsSys.step, Option.some.injEq] at h; subst h; first | exact u.stoppers | exact u.stopping | exact u.acking | exact u.halted
    | read i => simp only [PsSys.step, Option.some.injEq] at h; subst h; first | exact u.stoppers | exact u.stopping | exact u.acking | exact u.halted
    | shutdown i => exact absurd rfl (hl i)
    | recv t =>
      simp only [PsSys.step] at h
      split at h
      · obtain ⟨b, hb, rfl⟩ := Option.map_eq_some_iff.1 h; first | exact u.stoppers | exact u.stopping | exact u.acking | exact u.halted
      · cases h
    | tick t =>
      simp only [PsSys.step] at h
      split at h
      · obtain ⟨b, hb, rfl⟩ := Option.map_eq_some_iff.1 h; first | exact u.stoppers | exact u.stopping | exact u.acking | exact u.halted
      · cases h
    | request i t =>
      simp only [PsSys.step] at h
      split at h
      · split at h
        · obtain ⟨b, hb, rfl⟩ := Option.map_eq_some_iff.1 h; first | exact u.stoppers | exact u.stopping | simp
        · cases h
      · cases h
    | got i snap => simp only [PsSys.step] at h; split at h <;> simp at h; subst h; first | exact u.stoppers | exact u.stopping | simp
    | done i => simp [PsSys.step, u.stoppers] at h
    | stopped i => simp [PsSys.step, u.stopping] at h

theorem up (x : Exec PsSys.step (PsSys.init a0)) (hmax : 1 ≤ a0.maxIntervals) (hns : ∀ n i, x.lab n ≠ some (.shutdown i)) (n : Nat) : Up (x.st n) := by
  induction n with
  | zero => rw [x.start]; exact ⟨hmax, rfl, rfl, by simp [PsSys.init], by simp [PsSys.init]⟩
  | succ n ih =>
    rcases x.cases_lab n with ⟨e, e'⟩ | ⟨l, e, e'⟩
    · rw [e']; exact ih
    · exact ih.step e' (fun i hi => hns n i (by rw [e, hi]))

/-- the worker is in its `select` again and again. -/
theorem running_again (x : Exec PsSys.step (PsSys.init a0)) (n : Nat) (hup : ∀ m, n ≤ m → (x.st m).worker ≠ .acking ∧ (x.st m).worker ≠ .halted)
    (fg : x.WeakFair (fun l => ∃ i s, l = .got i s)) : ∃ m, n ≤ m ∧ (x.st m).worker = .running := by
  have hu := hup n (Nat.le_refl _)
  cases hw : (x.st n).worker with
  | running => exact ⟨n, Nat.le_refl _, hw⟩
  | acking => exact absurd hw hu.1
  | halted => exact absurd hw hu.2
  | replying i s =>
    refine Exec.leads_weak (P := fun m => (x.st m).worker = .replying i s) (Q := fun m => (x.st m).worker = .running) fg hw ?_ ?_ ?_
    · intro m _ hm; exact ⟨.got i s, ⟨i, s, rfl⟩, by simp [PsSys.step, hm]⟩
    · rintro m _ hm ⟨l, ⟨j, s', rfl⟩, hl⟩
      have := x.next m _ hl
      simp only [PsSys.step] at this
      split at this <;> simp at this
      rw [← this]
    · intro m hnm hm
      rcases x.cases_lab m with ⟨e, e'⟩ | ⟨l, e, e'⟩
      · left; rw [e']; exact hm
      · cases l with
        | emit e => simp only [PsSys.step, Option.some.injEq] at e'; left; rw [← e']; exact hm
        | read i => simp only [PsSys.step, Option.some.injEq] at e'; left; rw [← e']; exact hm
        | shutdown i => simp only [PsSys.step, Option.some.injEq] at e'; left; rw [← e']; exact hm
        | got j s' =>
          simp only [PsSys.step] at e'
          split at e' <;> simp at e'
          right; rw [← e']
        | done j => simp [PsSys.step, hm] at e'
        | stopped j => simp [PsSys.step, hm] at e'
        | recv t => simp [PsSys.step, hm] at e'
        | tick t => simp [PsSys.step, hm] at e'
        | request j t => simp [PsSys.step, hm] at e'

/-- every emission is received. -/
theorem all_received (x : Exec PsSys.step (PsSys.init a0)) (hup : ∀ n, Up (x.st n)) (fr : x.StrongFair (fun l => ∃ t, l = .recv t))
    (fg : x.WeakFair (fun l => ∃ i s, l = .got i s)) (n : Nat) : ∃ m, n ≤ m ∧ ∀ k, m ≤ k → (psEmissions (x.trace n)).length ≤ received x k := by
  have hmono : Monotone (received x) := monotone_nat_of_le_succ (fun n => (received_succ x n).1)
  refine Exec.reaches (fun n => (received_succ x n).1) ?_
  intro m hnm hlt
  refine Exec.leads_strong (P := fun k => received x k = received x m) (Q := fun k => received x m < received x k) fr rfl ?_ ?_ ?_
  · intro hP k hmk
    obtain ⟨j, hj, hw⟩ := running_again x k (fun m _ => ⟨(hup m).acking, (hup m).halted⟩) fg
    refine ⟨j, hj, .recv ⟨0, 0⟩, ⟨_, rfl⟩, ?_⟩
    have h1 := hP j (by omega)
    have h2 : (psEmissions (x.trace n)).length ≤ (psEmissions (x.trace j)).length := by
      have hp := x.trace_prefix (n := n) (m := j) (by omega)
      exact (hp.filterMap _).length_le
    cases hq : (x.st j).q with
    | nil => unfold received at h1; rw [hq] at h1; simp at h1; unfold received at hlt; omega
    | cons e q =>
      obtain ⟨a, ha, _⟩ := PsSys.recv_isSome (hup j).m hw hq ⟨0, 0⟩
      rw [ha]; rfl
  · intro k hk hP hd; have := (received_succ x k).2 hd; omega
  · intro k hk hP; have := (received_succ x k).1; omega

theorem got_after {x : Exec PsSys.step (PsSys.init a0)} {n i : Nat} {s : List IntAgg} (h : (x.st n).worker = .replying i s)
    (fg : x.WeakFair (fun l => ∃ i s, l = .got i s)) : ∃ m, n ≤ m ∧ x.lab m = some (.got i s) := by
  have := Exec.leads_weak (P := fun m => (x.st m).worker = .replying i s) (Q := fun m => ∃ k, n ≤ k ∧ k < m ∧ x.lab k = some (.got i s)) fg h ?_ ?_ ?_
  · obtain ⟨_, _, k, h1, _, h2⟩ := this; exact ⟨k, h1, h2⟩
  · intro m _ hm; exact ⟨.got i s, ⟨i, s, rfl⟩, by simp [PsSys.step, hm]⟩
  · rintro m hnm hm ⟨l, ⟨j, s', rfl⟩, hl⟩
    have := x.next m _ hl
    simp only [PsSys.step, hm] at this
    split at this <;> simp at this
    next h' => cases h'; exact ⟨m, hnm, by omega, hl⟩
  · intro m hnm hm
    rcases x.cases_lab m with ⟨e, e'⟩ | ⟨l, e, e'⟩
    · left; rw [e']; exact hm
    · cases l with
      | emit e => simp only [PsSys.step, Option.some.injEq] at e'; left; rw [← e']; exact hm
      | read i => simp only [PsSys.step, Option.some.injEq] at e'; left; rw [← e']; exact hm
      | shutdown i => simp only [PsSys.step, Option.some.injEq] at e'; left; rw [← e']; exact hm
      | got j s' =>
        right
        simp only [PsSys.step, hm] at e'
        split at e' <;> simp at e'
        next h' => cases h'; exact ⟨m, hnm, by omega, e⟩
      | done j => simp [PsSys.step, hm] at e'
      | stopped j => simp [PsSys.step, hm] at e'
      | recv t => simp [PsSys.step, hm] at e'
      | tick t => simp [PsSys.step, hm] at e'
      | request j t => simp [PsSys.step, hm] at e'

/-- a waiting call is served. -/
theorem served (x : Exec PsSys.step (PsSys.init a0)) (hup : ∀ n, Up (x.st n)) (fg : x.WeakFair (fun l => ∃ i s, l = .got i s)) {n i : Nat}
    (fq : x.StrongFair (fun l => ∃ t, l = .request i t)) (h : i ∈ (x.st n).readers) : ∃ m, n ≤ m ∧ ∃ s, (x.st m).worker = .replying i s := by
  have taken : ∀ m t, x.lab m = some (.request i t) → ∃ s, (x.st (m + 1)).worker = .replying i s := by
    intro m t hl
    have := x.next m _ hl
    simp only [PsSys.step] at this
    split at this
    · split at this
      · obtain ⟨b, hb, e⟩ := Option.map_eq_some_iff.1 this; rw [← e]; exact ⟨_, rfl⟩
      · cases this
    · cases this
  refine Exec.leads_strong (P := fun m => i ∈ (x.st m).readers) fq h ?_ ?_ ?_
  · intro hP m hnm
    obtain ⟨k, hk, hw⟩ := running_again x m (fun m _ => ⟨(hup m).acking, (hup m).halted⟩) fg
    refine ⟨k, hk, .request i ⟨0, 0⟩, ⟨_, rfl⟩, ?_⟩
    obtain ⟨c, hc, _⟩ := slide_some (hup k).m ⟨0, 0⟩
    simp [PsSys.step, hw, hP k (by omega), Aggregator.memorySafeIntervals, hc]
  · rintro m _ hP ⟨l, ⟨t, rfl⟩, hl⟩; exact taken m t hl
  · intro m _ hP
    rcases x.cases_lab m with ⟨e, e'⟩ | ⟨l, e, e'⟩
    · left; rw [e']; exact hP
    · cases l with
      | emit e => simp only [PsSys.step, Option.some.injEq] at e'; left; rw [← e']; exact hP
      | read i => simp only [PsSys.step, Option.some.injEq] at e'; left; rw [← e']; simp [hP]
      | shutdown i => simp only [PsSys.step, Option.some.injEq] at e'; left; rw [← e']; exact hP
      | got j s' =>
        left
        simp only [PsSys.step] at e'
        split at e' <;> simp at e'
        rw [← e']; exact hP
      | done j => simp [PsSys.step, (hup m).stoppers] at e'
      | stopped j => simp [PsSys.step, (hup m).stopping] at e'
      | recv t =>
        left
        simp only [PsSys.step] at e'
        split at e'
        · obtain ⟨b, hb, e2⟩ := Option.map_eq_some_iff.1 e'; rw [← e2]; exact hP
        · cases e'
      | tick t =>
        left
        simp only [PsSys.step] at e'
        split at e'
        · obtain ⟨b, hb, e2⟩ := Option.map_eq_some_iff.1 e'; rw [← e2]; exact hP
        · cases e'
      | request j t =>
        by_cases hj : i = j
        · subst hj; right; exact taken m t e
        · left
          simp only [PsSys.step] at e'
          split at e'
          · split at e'
            · obtain ⟨b, hb, e2⟩ := Option.map_eq_some_iff.1 e'; rw [← e2]; exact (List.mem_erase_of_ne hj).2 hP
            · cases e'
          · cases e'

theorem newAggregator_max {d r : Int} (hd : 0 < d) (hr : d ≤ r) {a0 : Aggregator} (h0 : newAggregator d r = some a0) : 1 ≤ a0.maxIntervals := by
  unfold newAggregator at h0
  rw [if_neg (by omega)] at h0
  simp only at h0
  split at h0
  · cases h0
  · simp only [Option.some.injEq] at h0
    subst h0
    show 1 ≤ Int.tdiv r d
    rw [Int.tdiv_eq_ediv_of_nonneg (by omega)]
    exact Int.le_ediv_of_mul_le hd (by omega)

end PsSys

/-- C86 (polling sink): every emission shows up.  From some time on everything that `GetMetrics` returns is what a sequential sink shows after a history that
contains all emissions made before time `n`, in their order (and later ones). -/
theorem C86_metrics (d r : Int) (hd : 0 < d) (hr : d ≤ r) (a0 : Aggregator) (h0 : newAggregator d r = some a0)
    (x : Exec PsSys.step (PsSys.init a0)) (hns : ∀ n i, x.lab n ≠ some (.shutdown i))
    (fr : x.StrongFair (fun l => ∃ t, l = .recv t)) (fg : x.WeakFair (fun l => ∃ i s, l = .got i s)) (n : Nat) :
    ∃ m, n ≤ m ∧ ∀ k i snap, m ≤ k → x.lab k = some (.got i snap) →
      ∃ hist now, psEmissions (x.trace n) <+: histEmissions hist ∧ histEmissions hist <+: psEmissions (x.trace k) ∧
        getMetrics d r hist now = some snap := by
  have hup := PsSys.up x (PsSys.newAggregator_max hd hr h0) hns
  obtain ⟨m, hnm, hm⟩ := PsSys.all_received x hup fr fg n
  refine ⟨m, hnm, fun k i snap hk hl => ?_⟩
  obtain ⟨hist, _, hi⟩ := (PsInv.init a0).run (PsSys.run_trace x k)
  obtain ⟨h', t, e1, e2, e3⟩ := hi.got (x.next k _ hl)
  have hp : histEmissions h' <+: psEmissions (x.trace k) := ⟨_, by simpa using e3⟩
  refine ⟨h', t, ?_, hp, by simp [getMetrics, h0, e2]⟩
  refine List.prefix_of_prefix_length_le ((x.trace_prefix (by omega : n ≤ k)).filterMap _) hp ?_
  have := hm k hk
  unfold PsSys.received at this
  have e4 := congrArg List.length e3
  simp only [List.nil_append, List.length_append] at e4
  have e5 := PsSys.q_le x k
  show (psEmissions (x.trace n)).length ≤ _
  omega

/-- C86: every `Emit…` call returns: from some time on only later emissions are in the channel or waiting for room in it. -/
theorem C86_emit_returns (d r : Int) (hd : 0 < d) (hr : d ≤ r) (a0 : Aggregator) (h0 : newAggregator d r = some a0)
    (x : Exec PsSys.step (PsSys.init a0)) (hns : ∀ n i, x.lab n ≠ some (.shutdown i))
    (fr : x.StrongFair (fun l => ∃ t, l = .recv t)) (fg : x.WeakFair (fun l => ∃ i s, l = .got i s)) (n : Nat) :
    ∃ m, n ≤ m ∧ ∀ k, m ≤ k → ∃ later, psEmissions (x.trace k) = psEmissions (x.trace n) ++ later ∧ (x.st k).q <:+ later ∧
      (x.st k).blocked <:+ later := by
  have hup := PsSys.up x (PsSys.newAggregator_max hd hr h0) hns
  obtain ⟨m, hnm, hm⟩ := PsSys.all_received x hup fr fg n
  refine ⟨m, hnm, fun k hk => ?_⟩
  obtain ⟨hist, _, e3⟩ := C17_nothing_lost a0 _ _ (PsSys.run_trace x k)
  obtain ⟨later, hl⟩ := (x.trace_prefix (by omega : n ≤ k)).filterMap (fun l => match l with | PsLab.emit e => some e | _ => none)
  have hl : psEmissions (x.trace n) ++ later = psEmissions (x.trace k) := hl
  have hs : (x.st k).q <:+ later := by
    refine List.suffix_of_suffix_length_le ⟨histEmissions hist, e3⟩ ⟨_, hl⟩ ?_
    have h1 := hm k hk
    unfold PsSys.received at h1
    have h2 := congrArg List.length hl
    simp only [List.length_append] at h2
    have h3 := PsSys.q_le x k
    omega
  exact ⟨later, hl.symm, hs, (List.drop_suffix _ _).trans hs⟩

/-- C86: `GetMetrics` returns. -/
theorem C86_get_metrics_returns (d r : Int) (hd : 0 < d) (hr : d ≤ r) (a0 : Aggregator) (h0 : newAggregator d r = some a0)
    (x : Exec PsSys.step (PsSys.init a0)) (hns : ∀ n i, x.lab n ≠ some (.shutdown i)) (i : Nat)
    (fq : x.StrongFair (fun l => ∃ t, l = .request i t)) (fg : x.WeakFair (fun l => ∃ i s, l = .got i s)) (n : Nat)
    (h : x.lab n = some (.read i)) : ∃ m snap, n < m ∧ x.lab m = some (.got i snap) := by
  have hup := PsSys.up x (PsSys.newAggregator_max hd hr h0) hns
  have h1 : i ∈ (x.st (n + 1)).readers := by
    have := x.next n _ h
    simp only [PsSys.step, Option.some.injEq] at this
    rw [← this]; simp
  obtain ⟨m, hm, s, hw⟩ := PsSys.served x hup fg fq h1
  obtain ⟨k, hk, hl⟩ := PsSys.got_after hw fg
  exact ⟨k, s, by omega, hl⟩

/-- C86: `ShutdownServer` returns (when it is called once), after which nothing is received any more (`C18_after_shutdown`). -/
theorem C86_shutdown_returns (a0 : Aggregator) (x : Exec PsSys.step (PsSys.init a0)) (n i : Nat) (h : x.lab n = some (.shutdown i))
    (honce : ∀ m j, x.lab m = some (.shutdown j) → m = n)
    (fd : x.StrongFair (fun l => l = .done i)) (fs : x.WeakFair (fun l => l = .stopped i)) (fg : x.WeakFair (fun l => ∃ i s, l = .got i s)) :
    ∃ m, n < m ∧ x.lab m = some (.stopped i) ∧ (x.st (m + 1)).worker = .halted := by
  -- nobody is stopping before
  have hcalm : ∀ m, m ≤ n → (x.st m).stoppers = [] ∧ (x.st m).stopping = [] ∧ (x.st m).worker ≠ .acking ∧ (x.st m).worker ≠ .halted := by
    intro m
    induction m with
    | zero => intro _; rw [x.start]; simp [PsSys.init]
    | succ m ih =>
      intro hm
      obtain ⟨i1, i2, i3, i4⟩ := ih (by omega)
      rcases x.cases_lab m with ⟨e, e'⟩ | ⟨l, e, e'⟩
      · rw [e']; exact ⟨i1, i2, i3, i4⟩
      · cases l with
        | emit e => simp only [PsSys.step, Option.some.injEq] at e'; rw [← e']; exact ⟨i1, i2, i3, i4⟩
        | read i => simp only [PsSys.step, Option.some.injEq] at e'; rw [← e']; exact ⟨i1, i2, i3, i4⟩
        | shutdown j => exact absurd (honce m j e) (by omega)
        | got j s' =>
          simp only [PsSys.step] at e'
          split at e' <;> simp at e'
          rw [← e']; exact ⟨i1, i2, by simp, by simp⟩
        | done j => simp [PsSys.step, i1] at e'
        | stopped j => simp [PsSys.step, i2] at e'
        | recv t =>
          simp only [PsSys.step] at e'
          split at e'
          · obtain ⟨b, hb, e2⟩ := Option.map_eq_some_iff.1 e'; rw [← e2]; exact ⟨i1, i2, i3, i4⟩
          · cases e'
        | tick t =>
          simp only [PsSys.step] at e'
          split at e'
          · obtain ⟨b, hb, e2⟩ := Option.map_eq_some_iff.1 e'; rw [← e2]; exact ⟨i1, i2, i3, i4⟩
          · cases e'
        | request j t =>
          simp only [PsSys.step] at e'
          split at e'
          · split at e'
            · obtain ⟨b, hb, e2⟩ := Option.map_eq_some_iff.1 e'; rw [← e2]; exact ⟨i1, i2, by simp, by simp⟩
            · cases e'
          · cases e'
  have hcalled : (x.st (n + 1)).stoppers = [i] ∧ (x.st (n + 1)).worker ≠ .acking ∧ (x.st (n + 1)).worker ≠ .halted := by
    have hs := x.next n _ h
    simp only [PsSys.step, Option.some.injEq] at hs
    obtain ⟨i1, _, i3, i4⟩ := hcalm n (Nat.le_refl _)
    rw [← hs]; exact ⟨by simp [i1], i3, i4⟩
  have taken : ∀ m, (x.st m).stoppers = [i] → ∀ j, x.lab m = some (.done j) → (x.st (m + 1)).worker = .acking ∧ (x.st (m + 1)).stopping = [i] := by
    intro m hP j hl
    have := x.next m _ hl
    simp only [PsSys.step, hP, List.mem_singleton] at this
    split at this
    · next hc => simp only [Option.some.injEq] at this; rw [← this]; exact ⟨rfl, by simp [hc.2]⟩
    · cases this
  obtain ⟨m, hm, hq⟩ := Exec.leads_strong (x := x) (n := n + 1)
    (P := fun m => (x.st m).stoppers = [i] ∧ (x.st m).worker ≠ .acking ∧ (x.st m).worker ≠ .halted)
    (Q := fun m => (x.st m).worker = .acking ∧ (x.st m).stopping = [i]) fd hcalled
    (by
      intro hP m hnm
      obtain ⟨k, hk, hw⟩ := PsSys.running_again x m (fun k hk => (hP k (by omega)).2) fg
      exact ⟨k, hk, .done i, rfl, by simp [PsSys.step, hw, (hP k (by omega)).1]⟩)
    (by rintro m _ hP ⟨l, rfl, hl⟩; exact taken m hP.1 i hl)
    (by
      rintro m hnm ⟨i1, i3, i4⟩
      rcases x.cases_lab m with ⟨e, e'⟩ | ⟨l, e, e'⟩
      · left; rw [e']; exact ⟨i1, i3, i4⟩
      · cases l with
        | emit e => simp only [PsSys.step, Option.some.injEq] at e'; left; rw [← e']; exact ⟨i1, i3, i4⟩
        | read i => simp only [PsSys.step, Option.some.injEq] at e'; left; rw [← e']; exact ⟨i1, i3, i4⟩
        | shutdown j => exact absurd (honce m j e) (by omega)
        | got j s' =>
          simp only [PsSys.step] at e'
          split at e' <;> simp at e'
          left; rw [← e']; exact ⟨i1, by simp, by simp⟩
        | done j => right; exact taken m i1 j e
        | stopped j => simp [PsSys.step, i3] at e'
        | recv t =>
          simp only [PsSys.step] at e'
          split at e'
          · obtain ⟨b, hb, e2⟩ := Option.map_eq_some_iff.1 e'; left; rw [← e2]; exact ⟨i1, i3, i4⟩
          · cases e'
        | tick t =>
          simp only [PsSys.step] at e'
          split at e'
          · obtain ⟨b, hb, e2⟩ := Option.map_eq_some_iff.1 e'; left; rw [← e2]; exact ⟨i1, i3, i4⟩
          · cases e'
        | request j t =>
          simp only [PsSys.step] at e'
          split at e'
          · split at e'
            · obtain ⟨b, hb, e2⟩ := Option.map_eq_some_iff.1 e'; left; rw [← e2]; exact ⟨i1, by simp, by simp⟩
            · cases e'
          · cases e')
  obtain ⟨_, _, k, h1, h2, h3⟩ := Exec.leads_weak (x := x) (n := m)
    (P := fun m => (x.st m).worker = .acking ∧ (x.st m).stopping = [i])
    (Q := fun j => ∃ k, n < k ∧ x.lab k = some (.stopped i) ∧ (x.st (k + 1)).worker = .halted) fs hq
    (by rintro k _ ⟨hw, hs⟩; exact ⟨.stopped i, rfl, by simp [PsSys.step, hw, hs]⟩)
    (by
      rintro k hk ⟨hw, hs⟩ ⟨l, rfl, hl⟩
      have := x.next k _ hl
      simp only [PsSys.step, hw, hs, List.mem_singleton, and_self, if_true, Option.some.injEq] at this
      exact ⟨k, by omega, hl, by rw [← this]⟩)
    (by
      rintro k hk ⟨hw, hs⟩
      rcases x.cases_lab k with ⟨e, e'⟩ | ⟨l, e, e'⟩
      · left; rw [e']; exact ⟨hw, hs⟩
      · cases l with
        | emit e => simp only [PsSys.step, Option.some.injEq] at e'; left; rw [← e']; exact ⟨hw, hs⟩
        | read i => simp only [PsSys.step, Option.some.injEq] at e'; left; rw [← e']; exact ⟨hw, hs⟩
        | shutdown j => simp only [PsSys.step, Option.some.injEq] at e'; left; rw [← e']; exact ⟨hw, hs⟩
        | got j s' => simp [PsSys.step, hw] at e'
        | done j => simp [PsSys.step, hw] at e'
        | recv t => simp [PsSys.step, hw] at e'
        | tick t => simp [PsSys.step, hw] at e'
        | request j t => simp [PsSys.step, hw] at e'
        | stopped j =>
          right
          simp only [PsSys.step, hw, hs, List.mem_singleton, true_and] at e'
          split at e'
          · next hj => subst hj; simp only [Option.some.injEq] at e'; exact ⟨k, by omega, e, by rw [← e']⟩
          · cases e')
  exact ⟨k, h1, h2, h3⟩

namespace Sample
/-- an execution that meets the hypotheses of the first three theorems: two emissions, one call of `GetMetrics` that shows the first one, one that shows both. -/
def psLive : List PsLab := [.emit psE, .emit psE, .recv ⟨10, 0⟩, .read 1, .request 1 ⟨20, 0⟩, .got 1 psSnap, .recv ⟨25, 0⟩, .read 2, .request 2 ⟨30, 0⟩,
  .got 2 ((getMetrics 60 300 [(⟨10, 0⟩, .emit psE), (⟨20, 0⟩, .read), (⟨25, 0⟩, .emit psE)] ⟨30, 0⟩).getD [])]
theorem psLive_runs : (psLive.foldlM PsSys.step (PsSys.init psAgg)).isSome := by decide +kernel
/-- … and of the fourth: `ShutdownServer` is called while an emission is waiting. -/
def psDown : List PsLab := [.emit psE, .shutdown 7, .recv ⟨10, 0⟩, .emit psE, .done 7, .stopped 7]
theorem psDown_runs : (psDown.foldlM PsSys.step (PsSys.init psAgg)).isSome := by decide +kernel
end Sample

example : ∃ x : Exec PsSys.step (PsSys.init Sample.psAgg), (∀ n i, x.lab n ≠ some (.shutdown i)) ∧ x.StrongFair (fun l => ∃ t, l = .recv t) ∧
    x.WeakFair (fun l => ∃ i s, l = .got i s) ∧ (∀ i, x.StrongFair (fun l => ∃ t, l = .request i t)) ∧ (psEmissions (x.trace 2)).length = 2 ∧
    x.lab 7 = some (.read 2) := by
  have hw : ((Sample.psLive.foldlM PsSys.step (PsSys.init Sample.psAgg)).get Sample.psLive_runs).worker = .running := by decide +kernel
  have hq : ((Sample.psLive.foldlM PsSys.step (PsSys.init Sample.psAgg)).get Sample.psLive_runs).q = [] := by decide +kernel
  have hr : ((Sample.psLive.foldlM PsSys.step (PsSys.init Sample.psAgg)).get Sample.psLive_runs).readers = [] := by decide +kernel
  refine ⟨Exec.script Sample.psLive Sample.psLive_runs, ?_, ?_, ?_, ?_, by decide +kernel, by decide +kernel⟩
  · intro n i hn
    have : PsLab.shutdown i ∈ Sample.psLive := List.mem_of_getElem? hn
    simp [Sample.psLive] at this
  · refine Exec.script_fair _ ?_
    rintro l ⟨t, rfl⟩
    simp only [PsSys.step, hw, hq]
  · refine (Exec.script_fair _ ?_).weak
    rintro l ⟨i, s, rfl⟩
    simp [PsSys.step, hw]
  · intro i
    refine Exec.script_fair _ ?_
    rintro l ⟨t, rfl⟩
    simp [PsSys.step, hw, hr]

example : ∃ x : Exec PsSys.step (PsSys.init Sample.psAgg), x.lab 1 = some (.shutdown 7) ∧ (∀ m j, x.lab m = some (.shutdown j) → m = 1) ∧
    x.StrongFair (fun l => l = .done 7) ∧ x.WeakFair (fun l => l = .stopped 7) ∧ x.WeakFair (fun l => ∃ i s, l = .got i s) := by
  have hw : ((Sample.psDown.foldlM PsSys.step (PsSys.init Sample.psAgg)).get Sample.psDown_runs).worker = .halted := by decide +kernel
  refine ⟨Exec.script Sample.psDown Sample.psDown_runs, rfl, ?_, ?_, ?_, ?_⟩
  · intro m j hm
    have hm : Sample.psDown[m]? = some (.shutdown j) := hm
    match m, hm with
    | 1, _ => rfl
    | 0, hm => simp [Sample.psDown] at hm
    | 2, hm => simp [Sample.psDown] at hm
    | 3, hm => simp [Sample.psDown] at hm
    | 4, hm => simp [Sample.psDown] at hm
    | 5, hm => simp [Sample.psDown] at hm
    | n + 6, hm => simp [Sample.psDown] at hm
  · refine Exec.script_fair _ ?_
    rintro l rfl
    simp [PsSys.step, hw]
  · refine (Exec.script_fair _ ?_).weak
    rintro l rfl
    simp [PsSys.step, hw]
  · refine (Exec.script_fair _ ?_).weak
    rintro l ⟨i, s, rfl⟩
    simp [PsSys.step, hw]
