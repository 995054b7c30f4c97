import Verif.Lemmas.Fairness
import Verif.Props.StatsDLoop
import Mathlib.Data.List.Nodup
import Mathlib.Algebra.Ring.Parity
import Mathlib.Tactic.SplitIfs
/-!
# Property C86: what is emitted is sent eventually (StatsD sink)
-/
open Spec StatsD SdSys

namespace SdSys

/-- the message that a step sends on `cmdChan`. -/
def msgOf : SdLab → Option SdMsg
  | .emit c => some (.emit c)
  | .tick => some .flush
  | .drain i => some (.drain i)
  | .stop i => some (.stop i)
  | _ => none

/-- the messages sent, in order. -/
def msgs (tr : List SdLab) : List SdMsg := tr.filterMap msgOf

theorem msgs_append (a b : List SdLab) : msgs (a ++ b) = msgs a ++ msgs b := by simp [msgs]

theorem qCmds_msgs (tr : List SdLab) : qCmds (msgs tr) = emissions tr := by
  induction tr with
  | nil => rfl
  | cons l tr ih =>
    rw [show l :: tr = [l] ++ tr from rfl, msgs_append, qCmds_append, emissions_append, ih]
    cases l <;> rfl

/-- a step takes at most the first message, and adds its own. -/
theorem step_msgs {y y' : SdSys} {l : SdLab} (h : y.step l = some y') :
    (y.q ++ msgs [l] = y'.q ∧ (l = .work → y.q = [] )) ∨ (l = .work ∧ ∃ m, y.q = m :: y'.q) := by
  cases l with
  | emit c => simp only [SdSys.step, Option.some.injEq] at h; subst h; simp [msgs, msgOf]
  | tick => simp only [SdSys.step, Option.some.injEq] at h; subst h; simp [msgs, msgOf]
  | drain i =>
    simp only [SdSys.step] at h
    split at h
    · cases h
    · simp only [Option.some.injEq] at h; subst h; simp [msgs, msgOf]
  | stop i =>
    simp only [SdSys.step] at h
    split at h
    · cases h
    · simp only [Option.some.injEq] at h; subst h; simp [msgs, msgOf]
  | drained i =>
    simp only [SdSys.step] at h
    split at h
    · simp only [Option.some.injEq] at h; subst h; simp [msgs, msgOf]
    · cases h
  | stopped i =>
    simp only [SdSys.step] at h
    split at h
    · simp only [Option.some.injEq] at h; subst h; simp [msgs, msgOf]
    · cases h
  | work =>
    simp only [SdSys.step, SdSys.work] at h
    split at h <;> simp only [Option.some.injEq, reduceCtorEq] at h <;> subst h
    all_goals next hq => first | (right; exact ⟨rfl, _, hq⟩) | (left; simp [hq, msgs, msgOf])

section
variable {s0 : StatsD} (x : Exec SdSys.step (SdSys.init s0))

theorem run_trace (n : Nat) : (SdSys.init s0).run (x.trace n) = some (x.st n) := by
  induction n with
  | zero => simp [Exec.trace, SdSys.run, x.start]
  | succ n ih =>
    rw [Exec.trace, SdSys.run_append, ih]
    rcases x.cases_lab n with ⟨e, e'⟩ | ⟨l, e, e'⟩
    · simp [e, SdSys.run, e']
    · simp [e, SdSys.run, e']

theorem taken_msgs (n : Nat) : ∃ t, t ++ (x.st n).q = msgs (x.trace n) := by
  induction n with
  | zero => exact ⟨[], by simp [Exec.trace, msgs, x.start, SdSys.init]⟩
  | succ n ih =>
    obtain ⟨t, ht⟩ := ih
    rcases x.cases_lab n with ⟨e, e'⟩ | ⟨l, e, e'⟩
    · exact ⟨t, by rw [e', Exec.trace, e, ht]; simp⟩
    · rw [Exec.trace, e, Option.toList_some, msgs_append, ← ht]
      rcases step_msgs e' with ⟨h1, _⟩ | ⟨rfl, m, h1⟩
      · exact ⟨t, by rw [← h1]; simp⟩
      · exact ⟨t ++ [m], by simp [h1, msgs, msgOf]⟩

/-- the number of messages taken. -/
def taken (n : Nat) : Nat := (msgs (x.trace n)).length - (x.st n).q.length

theorem taken_add (n : Nat) : taken x n + (x.st n).q.length = (msgs (x.trace n)).length := by
  obtain ⟨t, ht⟩ := taken_msgs x n
  unfold taken
  rw [← ht]; simp

theorem taken_succ (n : Nat) : taken x n ≤ taken x (n + 1) ∧ taken x (n + 1) ≤ taken x n + 1 ∧
    (x.lab n = some .work → (x.st n).q ≠ [] → taken x (n + 1) = taken x n + 1) ∧
    (taken x n < taken x (n + 1) → x.lab n = some .work ∧ ∃ m, (x.st n).q = m :: (x.st (n + 1)).q) := by
  have h1 := taken_add x n
  have h2 := taken_add x (n + 1)
  rcases x.cases_lab n with ⟨e, e'⟩ | ⟨l, e, e'⟩
  · have : taken x (n + 1) = taken x n := by unfold taken; rw [e', Exec.trace, e]; simp
    exact ⟨by omega, by omega, fun hw => (by rw [e] at hw; cases hw), by omega⟩
  · rw [Exec.trace, e, Option.toList_some, msgs_append, List.length_append] at h2
    rcases step_msgs e' with ⟨g1, g2⟩ | ⟨rfl, m, g1⟩
    · have := congrArg List.length g1
      rw [List.length_append] at this
      exact ⟨by omega, by omega, fun hw hq => by rw [e] at hw; exact absurd (g2 (by simpa using hw)) hq, by omega⟩
    · have := congrArg List.length g1
      have g3 : msgs [SdLab.work] = [] := rfl
      rw [g3] at h2
      simp only [List.length_nil, List.length_cons] at this h2
      exact ⟨by omega, by omega, fun _ _ => by omega, fun _ => ⟨e, m, g1⟩⟩

theorem taken_mono : Monotone (taken x) := monotone_nat_of_le_succ (fun n => (taken_succ x n).1)

/-- is it the message of a `Drain` call? -/
def isDrain : SdMsg → Bool
  | .drain _ => true
  | _ => false

/-- what holds without calls of `Stop`: the worker runs, and when it has drained there is a `Drain` call to tell. -/
structure Up (y : SdSys) : Prop where
  noStop : NoStopQ y.q
  stoppers : y.stoppers = []
  stopping : y.worker ≠ .stopping
  halted : y.worker ≠ .halted
  nodup : y.drainers.Nodup
  count : (y.q.countP isDrain) + (if y.worker = .draining ∨ y.worker = .drainDone then 1 else 0) ≤ y.drainers.length

theorem Up.enq {y : SdSys} (u : Up y) (m : SdMsg) (h1 : ∀ i, m ≠ .stop i) (h2 : isDrain m = false) : Up { y with q := y.q ++ [m] } := by
  refine ⟨?_, u.stoppers, u.stopping, u.halted, u.nodup, ?_⟩
  · intro i hi
    rcases List.mem_append.1 hi with hi | hi
    · exact u.noStop i hi
    · exact h1 i (List.mem_singleton.1 hi).symm
  · have := u.count
    simpa [List.countP_append, h2] using this

theorem Up.deq {y : SdSys} (u : Up y) {m : SdMsg} {q : List SdMsg} (hq : y.q = m :: q) (s : StatsD) : Up { y with q := q, sink := s } := by
  refine ⟨fun i hi => u.noStop i (by rw [hq]; simp [hi]), u.stoppers, u.stopping, u.halted, u.nodup, ?_⟩
  have := u.count
  rw [hq, List.countP_cons] at this
  show q.countP isDrain + (if y.worker = .draining ∨ y.worker = .drainDone then 1 else 0) ≤ y.drainers.length
  omega

theorem Up.step {y y' : SdSys} {l : SdLab} (u : Up y) (h : y.step l = some y') (hl : ∀ i, l ≠ .stop i) : Up y' := by
  cases l with
  | emit c => simp only [SdSys.step, Option.some.injEq] at h; subst h; exact u.enq _ (by simp) rfl
  | tick => simp only [SdSys.step, Option.some.injEq] at h; subst h; exact u.enq _ (by simp) rfl
  | stop i => exact absurd rfl (hl i)
  | stopped i => simp [SdSys.step, u.stoppers] at h
  | drain i =>
    simp only [SdSys.step] at h
    split at h
    · cases h
    · next hn =>
      simp only [Option.some.injEq] at h; subst h
      refine ⟨?_, u.stoppers, u.stopping, u.halted, ?_, ?_⟩
      · intro j hj
        rcases List.mem_append.1 hj with hj | hj
        · exact u.noStop j hj
        · simp at hj
      · rw [List.nodup_append]
        refine ⟨u.nodup, by simp, ?_⟩
        rintro a ha b hb rfl
        simp at hb; subst hb; exact hn ha
      · have := u.count
        simp only [List.countP_append, List.length_append, List.countP_singleton, isDrain, if_true, List.length_singleton]
        omega
  | drained i =>
    simp only [SdSys.step] at h
    split at h
    · next hc =>
      simp only [Option.some.injEq] at h; subst h
      refine ⟨u.noStop, u.stoppers, by simp, by simp, u.nodup.erase i, ?_⟩
      have := u.count
      rw [if_pos (.inr hc.1)] at this
      have hl := List.length_erase_of_mem hc.2.1
      simp only [hl, reduceCtorEq, or_self, if_false]
      omega
    · cases h
  | work =>
    simp only [SdSys.step, SdSys.work] at h
    split at h <;> simp only [Option.some.injEq, reduceCtorEq] at h <;> subst h
    case h_4 j q hw hq =>
      have u' := u.deq hq y.sink
      refine ⟨u'.noStop, u'.stoppers, by simp, by simp, u'.nodup, ?_⟩
      have := u.count
      rw [hq, List.countP_cons] at this
      simpa [isDrain, hw] using this
    case h_5 j q hw hq => exact absurd (by rw [hq]; simp) (u.noStop j)
    case h_6 hw hq =>
      refine ⟨u.noStop, u.stoppers, by simp, by simp, u.nodup, ?_⟩
      have := u.count
      rw [if_pos (.inl hw)] at this
      simpa using this
    all_goals next hq => exact u.deq hq _

/-- somebody is waiting who can be told. -/
theorem Up.tell {y : SdSys} (u : Up y) (hw : y.worker = .drainDone) : ∃ i, (y.step (.drained i)).isSome := by
  by_contra hc
  have hall : ∀ i ∈ y.drainers, SdMsg.drain i ∈ y.q := by
    intro i hi
    by_contra hq
    refine hc ⟨i, ?_⟩
    have : SdMsg.drain i ∉ y.q.drop cmdChanBuffSize := fun hx => hq (List.mem_of_mem_drop hx)
    simp [SdSys.step, hw, hi, this]
  have h1 : (y.drainers.map SdMsg.drain) ⊆ y.q.filter isDrain := by
    intro m hm
    obtain ⟨i, hi, rfl⟩ := List.mem_map.1 hm
    exact List.mem_filter.2 ⟨hall i hi, rfl⟩
  have h2 : (y.drainers.map SdMsg.drain).Nodup := List.Nodup.map (fun a b h => by simpa using h) u.nodup
  have h3 := (List.subperm_of_subset h2 h1).length_le
  rw [List.length_map, ← List.countP_eq_length_filter] at h3
  have := u.count
  rw [if_pos (.inr hw)] at this
  omega

theorem up (hns : ∀ n i, x.lab n ≠ some (.stop i)) (n : Nat) : Up (x.st n) := by
  induction n with
  | zero =>
    rw [x.start]
    exact ⟨by intro i hi; simp [SdSys.init] at hi, rfl, by simp [SdSys.init], by simp [SdSys.init], by simp [SdSys.init], by simp [SdSys.init]⟩
  | succ n ih =>
    rcases x.cases_lab n with ⟨e, e'⟩ | ⟨l, e, e'⟩
    · rw [e']; exact ih
    · exact ih.step e' (fun i hi => hns n i (by rw [e, hi]))

/-- is the worker receiving? -/
def Receiving (y : SdSys) : Prop := y.worker = .idle ∨ y.worker = .draining

theorem Receiving.work {y : SdSys} (h : Receiving y) (hq : y.q ≠ []) : (y.step .work).isSome := by
  cases hq' : y.q with
  | nil => exact absurd hq' hq
  | cons m q => rcases h with h | h <;> cases m <;> simp [SdSys.step, SdSys.work, h, hq']

/-- only the worker and `Drain`'s receive change where the worker is. -/
theorem worker_step {y y' : SdSys} {l : SdLab} (h : y.step l = some y') (h1 : l ≠ .work) (h2 : ∀ i, l ≠ .drained i) (h3 : ∀ i, l ≠ .stopped i) :
    y'.worker = y.worker := by
  cases l with
  | emit c => simp only [SdSys.step, Option.some.injEq] at h; subst h; rfl
  | tick => simp only [SdSys.step, Option.some.injEq] at h; subst h; rfl
  | drain i =>
    simp only [SdSys.step] at h
    split at h
    · cases h
    · simp only [Option.some.injEq] at h; subst h; rfl
  | stop i =>
    simp only [SdSys.step] at h
    split at h
    · cases h
    · simp only [Option.some.injEq] at h; subst h; rfl
  | drained i => exact absurd rfl (h2 i)
  | stopped i => exact absurd rfl (h3 i)
  | work => exact absurd rfl h1

theorem drained_step {y y' : SdSys} {i : Nat} (h : y.step (.drained i) = some y') : y.worker = .drainDone ∧ y'.worker = .idle := by
  simp only [SdSys.step] at h
  split at h
  · next hc => simp only [Option.some.injEq] at h; subst h; exact ⟨hc.1, rfl⟩
  · cases h

/-- the worker receives again and again. -/
theorem receiving_again (hup : ∀ n, Up (x.st n)) (fd : x.WeakFair (fun l => ∃ i, l = .drained i)) (n : Nat) : ∃ m, n ≤ m ∧ Receiving (x.st m) := by
  cases hw : (x.st n).worker with
  | idle => exact ⟨n, Nat.le_refl _, .inl hw⟩
  | draining => exact ⟨n, Nat.le_refl _, .inr hw⟩
  | stopping => exact absurd hw (hup n).stopping
  | halted => exact absurd hw (hup n).halted
  | drainDone =>
    refine Exec.leads_weak (P := fun m => (x.st m).worker = .drainDone) fd hw ?_ ?_ ?_
    · intro m _ hm
      obtain ⟨i, hi⟩ := (hup m).tell hm
      exact ⟨_, ⟨i, rfl⟩, hi⟩
    · rintro m _ hm ⟨l, ⟨i, rfl⟩, hl⟩
      exact .inl (drained_step (x.next m _ hl)).2
    · intro m _ hm
      rcases x.cases_lab m with ⟨e, e'⟩ | ⟨l, e, e'⟩
      · left; rw [e']; exact hm
      · by_cases h1 : l = .work
        · subst h1; simp [SdSys.step, SdSys.work, hm] at e'
        · by_cases h2 : ∃ i, l = .drained i
          · obtain ⟨i, rfl⟩ := h2; right; exact .inl (drained_step e').2
          · by_cases h3 : ∃ i, l = .stopped i
            · obtain ⟨i, rfl⟩ := h3; simp [SdSys.step, hm] at e'
            · left; rw [worker_step e' h1 (fun i hi => h2 ⟨i, hi⟩) (fun i hi => h3 ⟨i, hi⟩)]; exact hm

/-- every message is taken. -/
theorem all_taken (hup : ∀ n, Up (x.st n)) (fw : x.WeakFair (fun l => l = .work)) (fd : x.WeakFair (fun l => ∃ i, l = .drained i)) (n : Nat) :
    ∃ m, n ≤ m ∧ ∀ k, m ≤ k → (msgs (x.trace n)).length ≤ taken x k := by
  refine Exec.reaches (fun n => (taken_succ x n).1) ?_
  intro m hnm hlt
  have hqne : ∀ k, n ≤ k → taken x k = taken x m → (x.st k).q ≠ [] := by
    intro k hk he hq
    have h1 := taken_add x k
    have h2 := ((x.trace_prefix (n := n) (m := k) hk).filterMap msgOf).length_le
    rw [hq] at h1
    simp only [List.length_nil] at h1
    unfold msgs at h1 hlt
    omega
  obtain ⟨m', hm', hr⟩ := receiving_again x hup fd m
  by_cases he : taken x m < taken x m'
  · exact ⟨m', hm', he⟩
  have he : taken x m' = taken x m := by have := taken_mono x hm'; omega
  obtain ⟨k, hk, hq⟩ := Exec.leads_weak (x := x) (P := fun k => taken x k = taken x m ∧ Receiving (x.st k)) (Q := fun k => taken x m < taken x k) fw ⟨he, hr⟩
    (fun k hk hP => ⟨_, rfl, hP.2.work (hqne k (by omega) hP.1)⟩)
    (by
      rintro k hk ⟨h1, _⟩ ⟨l, rfl, hl⟩
      have := (taken_succ x k).2.2.1 hl (hqne k (by omega) h1)
      omega)
    (by
      rintro k hk ⟨h1, h2⟩
      have hs := taken_succ x k
      by_cases hw : x.lab k = some .work
      · right; have := hs.2.2.1 hw (hqne k (by omega) h1); omega
      · by_cases ht : taken x k < taken x (k + 1)
        · exact absurd (hs.2.2.2 ht).1 hw
        · left
          refine ⟨by omega, ?_⟩
          rcases x.cases_lab k with ⟨e, e'⟩ | ⟨l, e, e'⟩
          · rw [e']; exact h2
          · by_cases h3 : ∃ i, l = .drained i
            · obtain ⟨i, rfl⟩ := h3; exact .inl (drained_step e').2
            · by_cases h4 : ∃ i, l = .stopped i
              · obtain ⟨i, rfl⟩ := h4; simp [SdSys.step, (hup k).stoppers] at e'
              · unfold Receiving
                rw [worker_step e' (fun h => hw (by rw [e, h])) (fun i hi => h3 ⟨i, hi⟩) (fun i hi => h4 ⟨i, hi⟩)]; exact h2)
  exact ⟨k, by omega, hq⟩

/-- once a time's messages are taken, only later emissions are queued. -/
theorem queued_later {n k : Nat} (hnk : n ≤ k) (h : (msgs (x.trace n)).length ≤ taken x k) :
    ∃ later, emissions (x.trace k) = emissions (x.trace n) ++ later ∧ qCmds (x.st k).q <:+ later := by
  obtain ⟨lm, hlm⟩ : msgs (x.trace n) <+: msgs (x.trace k) := (x.trace_prefix hnk).filterMap _
  obtain ⟨t, ht⟩ := taken_msgs x k
  have hs : (x.st k).q <:+ lm := by
    refine List.suffix_of_suffix_length_le ⟨t, ht⟩ ⟨_, hlm⟩ ?_
    have h1 := taken_add x k
    have h2 := congrArg List.length hlm
    rw [List.length_append] at h2
    omega
  refine ⟨qCmds lm, ?_, ?_⟩
  · rw [← qCmds_msgs, ← qCmds_msgs, ← hlm, qCmds_append]
  · obtain ⟨p, hp⟩ := hs; exact ⟨qCmds p, by rw [← hp, qCmds_append]⟩

end
end SdSys

/-- C86 (StatsD): every emission is processed.  From some time on the bytes handed to the socket, followed by the pending ones, are the metrics of a sequence of
emissions that begins with those made before time `n`, whatever is drained meanwhile. -/
theorem C86_statsd_processed (o : StatsDOpts) (x : Exec SdSys.step (SdSys.init (fresh o))) (hns : ∀ n i, x.lab n ≠ some (.stop i))
    (fw : x.WeakFair (fun l => l = .work)) (fd : x.WeakFair (fun l => ∃ i, l = .drained i)) (n : Nat) :
    ∃ m, n ≤ m ∧ ∀ k, m ≤ k → ∃ more, emissions (x.trace n) ++ more <+: emissions (x.trace k) ∧
      (x.st k).sink.packets.flatten ++ (x.st k).sink.udpBuf = linesOf o (emissions (x.trace n) ++ more) := by
  obtain ⟨m, hm, h⟩ := all_taken x (up x hns) fw fd n
  refine ⟨m, hm, fun k hk => ?_⟩
  obtain ⟨done, queued, h1, h2, h3⟩ := C31_first_in_first_out o _ _ (run_trace x k)
  obtain ⟨later, g1, g2⟩ := queued_later x (by omega : n ≤ k) (h k hk)
  have hp : emissions (x.trace n) <+: done := by
    refine List.prefix_of_prefix_length_le ⟨later, g1.symm⟩ ⟨queued, h1⟩ ?_
    have e1 := congrArg List.length h1
    have e2 := congrArg List.length g1
    have e3 := g2.length_le
    rw [h2] at e3
    simp only [List.length_append] at e1 e2
    omega
  obtain ⟨more, rfl⟩ := hp
  exact ⟨more, ⟨queued, h1⟩, h3⟩

/-! ## Sending -/

namespace StatsD
theorem getPrefixBuffer_packets (s : StatsD) (k : EventKey) : (s.getPrefixBuffer k).1.packets = s.packets := by
  unfold getPrefixBuffer
  split <;> rfl

theorem writeMetric_packets (s : StatsD) (b : Str) : s.packets <+: (s.writeMetric b).packets := by
  simp only [writeMetric]
  split
  · exact List.prefix_rfl
  · split
    · exact List.prefix_rfl
    · split
      · exact List.prefix_append _ _
      · exact List.prefix_rfl

theorem emitLine_packets (s : StatsD) (k : EventKey) (rest : Str) : s.packets <+: (s.emitLine k rest).packets := by
  simp only [emitLine]
  refine List.IsPrefix.trans ?_ (writeMetric_packets _ _)
  show s.packets <+: (s.getPrefixBuffer k).1.packets
  rw [getPrefixBuffer_packets]; exact List.prefix_rfl

theorem emitBoth_packets (s : StatsD) (job event suffix rest : Str) : s.packets <+: (s.emitBoth job event suffix rest).packets := by
  simp only [emitBoth]
  split
  · split
    · exact List.prefix_rfl
    · exact emitLine_packets _ _ _
  · split
    · exact emitLine_packets _ _ _
    · exact (emitLine_packets _ _ _).trans (emitLine_packets _ _ _)

/-- datagrams are never taken back. -/
theorem processCmd_packets (s : StatsD) (c : SdCmd) : s.packets <+: (s.processCmd c).packets := by
  cases c <;> first | exact emitBoth_packets _ _ _ _ _ | exact emitLine_packets _ _ _

theorem flush_packets (s : StatsD) : s.packets <+: s.flush.packets := by
  unfold flush
  split
  · exact List.prefix_append _ _
  · exact List.prefix_rfl
end StatsD

namespace SdSys

theorem step_packets {y y' : SdSys} {l : SdLab} (h : y.step l = some y') : y.sink.packets <+: y'.sink.packets := by
  cases l with
  | emit c => simp only [SdSys.step, Option.some.injEq] at h; subst h; exact List.prefix_rfl
  | tick => simp only [SdSys.step, Option.some.injEq] at h; subst h; exact List.prefix_rfl
  | drain i =>
    simp only [SdSys.step] at h
    split at h
    · cases h
    · simp only [Option.some.injEq] at h; subst h; exact List.prefix_rfl
  | stop i =>
    simp only [SdSys.step] at h
    split at h
    · cases h
    · simp only [Option.some.injEq] at h; subst h; exact List.prefix_rfl
  | drained i =>
    simp only [SdSys.step] at h
    split at h
    · simp only [Option.some.injEq] at h; subst h; exact List.prefix_rfl
    · cases h
  | stopped i =>
    simp only [SdSys.step] at h
    split at h
    · simp only [Option.some.injEq] at h; subst h; exact List.prefix_rfl
    · cases h
  | work =>
    simp only [SdSys.step, SdSys.work] at h
    split at h <;> simp only [Option.some.injEq, reduceCtorEq] at h <;> subst h <;>
      first | exact processCmd_packets _ _ | exact flush_packets _ | exact List.prefix_rfl

theorem packets_mono {s0 : StatsD} (x : Exec SdSys.step (SdSys.init s0)) {n k : Nat} (h : n ≤ k) : (x.st n).sink.packets <+: (x.st k).sink.packets := by
  induction k, h using Nat.le_induction with
  | base => exact List.prefix_rfl
  | succ k _ ih =>
    rcases x.cases_lab k with ⟨_, e⟩ | ⟨l, _, e⟩
    · rw [e]; exact ih
    · exact ih.trans (step_packets e)

/-- without drains the worker stays in `LOOP`. -/
theorem idle {s0 : StatsD} (x : Exec SdSys.step (SdSys.init s0)) (hns : ∀ n i, x.lab n ≠ some (.stop i)) (hnd : ∀ n i, x.lab n ≠ some (.drain i)) (n : Nat) :
    (x.st n).worker = .idle := by
  have hq : ∀ n, NoDrain (x.st n).q := by
    intro n i hi
    obtain ⟨t, ht⟩ := taken_msgs x n
    have : SdMsg.drain i ∈ msgs (x.trace n) := by rw [← ht]; simp [hi]
    obtain ⟨l, hl, e⟩ := List.mem_filterMap.1 this
    obtain ⟨m, _, hm⟩ := x.mem_trace.1 hl
    cases l <;> simp [msgOf] at e
    subst e
    exact hnd m _ hm
  induction n with
  | zero => rw [x.start]; rfl
  | succ n ih =>
    rcases x.cases_lab n with ⟨_, e⟩ | ⟨l, hl, e⟩
    · rw [e]; exact ih
    · by_cases h1 : l = .work
      · subst h1
        have hu := up x hns n
        simp only [SdSys.step, SdSys.work, ih] at e
        split at e <;> simp only [Option.some.injEq, reduceCtorEq] at e <;> rw [← e]
        · next j q _ hq' => exact absurd (by rw [hq']; simp) (hq n j)
        · next j q _ hq' => exact absurd (by rw [hq']; simp) (hu.noStop j)
        · next hc _ => cases hc
      · by_cases h2 : ∃ i, l = .drained i
        · obtain ⟨i, rfl⟩ := h2; exact (drained_step e).2
        · by_cases h3 : ∃ i, l = .stopped i
          · obtain ⟨i, rfl⟩ := h3; simp [SdSys.step, ih] at e
          · rw [worker_step e h1 (fun i hi => h2 ⟨i, hi⟩) (fun i hi => h3 ⟨i, hi⟩)]; exact ih

/-- message number `j` is taken at some time. -/
theorem when_taken {s0 : StatsD} (x : Exec SdSys.step (SdSys.init s0)) {n m j : Nat} (h1 : taken x n ≤ j) (h2 : j < taken x m) :
    ∃ k, n ≤ k ∧ x.lab k = some .work ∧ taken x k = j ∧ taken x (k + 1) = j + 1 ∧ ∃ msg, (x.st k).q = msg :: (x.st (k + 1)).q := by
  have hnm : n ≤ m := by
    by_contra hc
    have := taken_mono x (by omega : m ≤ n)
    omega
  obtain ⟨d, rfl⟩ : ∃ d, m = n + d := ⟨m - n, by omega⟩
  clear hnm
  induction d with
  | zero => rw [Nat.add_zero] at h2; omega
  | succ d ih =>
    by_cases h : j < taken x (n + d)
    · exact ih h
    · have hs := taken_succ x (n + d)
      rw [← Nat.add_assoc] at h2
      obtain ⟨g1, g2⟩ := hs.2.2.2 (by omega)
      exact ⟨n + d, by omega, g1, by omega, by omega, g2⟩

end SdSys

/-- C86 (StatsD): without drains the ticker has everything sent: from some time on the datagrams handed to the socket begin with the metrics of all emissions made
before time `n`. -/
theorem C86_statsd_sent (o : StatsDOpts) (x : Exec SdSys.step (SdSys.init (fresh o))) (hns : ∀ n i, x.lab n ≠ some (.stop i))
    (hnd : ∀ n i, x.lab n ≠ some (.drain i)) (fw : x.WeakFair (fun l => l = .work)) (ft : x.WeakFair (fun l => l = .tick)) (n : Nat) :
    ∃ m, n ≤ m ∧ ∀ k, m ≤ k → linesOf o (emissions (x.trace n)) <+: (x.st k).sink.packets.flatten := by
  have hidle := SdSys.idle x hns hnd
  have fd : x.WeakFair (fun l => ∃ i, l = .drained i) := by
    intro n hn
    obtain ⟨l, ⟨i, rfl⟩, h⟩ := hn n (Nat.le_refl _)
    simp [SdSys.step, hidle n] at h
  obtain ⟨t, hnt, l, rfl, ht⟩ := ft n (fun m _ => ⟨.tick, rfl, by simp [SdSys.step]⟩)
  obtain ⟨m, hm, h⟩ := all_taken x (up x hns) fw fd (t + 1)
  have hlen : (msgs (x.trace (t + 1))).length = (msgs (x.trace t)).length + 1 := by
    rw [Exec.trace, ht, Option.toList_some, msgs_append]; simp [msgs, msgOf]
  obtain ⟨k, hk, hwork, e1, e2, msg, hq⟩ := when_taken x (n := t) (m := m) (j := (msgs (x.trace t)).length)
    (by have := taken_add x t; omega) (by have := h m (Nat.le_refl _); omega)
  -- the message is the flush
  have hkt : t + 1 ≤ k := by
    by_contra hc
    have : k = t := by omega
    subst this
    rw [ht] at hwork; cases hwork
  have hmsg : msg = .flush := by
    obtain ⟨tk, htk⟩ := taken_msgs x k
    obtain ⟨later, hl⟩ : msgs (x.trace (t + 1)) <+: msgs (x.trace k) := (x.trace_prefix hkt).filterMap _
    have g1 := taken_add x k
    have g2 := congrArg List.length htk
    rw [List.length_append] at g2
    have g3 : (msgs (x.trace k))[(msgs (x.trace t)).length]? = some msg := by
      rw [← htk, List.getElem?_append_right (by omega), hq]
      simp [show (msgs (x.trace t)).length - tk.length = 0 by omega]
    rw [← hl, Exec.trace, ht, Option.toList_some, msgs_append] at g3
    simp [msgs, msgOf] at g3
    exact g3.symm
  subst hmsg
  -- after the flush nothing is pending
  have hflush : (x.st (k + 1)).sink.udpBuf = [] := by
    have := x.next k _ hwork
    simp only [SdSys.step, SdSys.work, hidle k, hq, Option.some.injEq] at this
    rw [← this]; exact flush_buf _
  refine ⟨k + 1, by omega, fun j hj => ?_⟩
  obtain ⟨done, queued, h1, h2, h3⟩ := C31_first_in_first_out o _ _ (SdSys.run_trace x (k + 1))
  rw [hflush, List.append_nil] at h3
  obtain ⟨later, g1, g2⟩ := queued_later x (by omega : n ≤ k + 1) (by
    have := ((x.trace_prefix (by omega : n ≤ t)).filterMap msgOf).length_le
    unfold msgs at e2
    show (List.filterMap msgOf _).length ≤ _
    omega)
  have hp : emissions (x.trace n) <+: done := by
    refine List.prefix_of_prefix_length_le ⟨later, g1.symm⟩ ⟨queued, h1⟩ ?_
    have e1 := congrArg List.length h1
    have e2 := congrArg List.length g1
    have e3 := g2.length_le
    rw [h2] at e3
    simp only [List.length_append] at e1 e2
    omega
  obtain ⟨more, rfl⟩ := hp
  have : linesOf o (emissions (x.trace n)) <+: linesOf o (emissions (x.trace n) ++ more) :=
    ⟨linesOf o more, by simp [linesOf]⟩
  rw [← h3] at this
  obtain ⟨p, hp⟩ := packets_mono x hj
  exact this.trans ⟨p.flatten, by rw [← hp, List.flatten_append]⟩

/-! ## `Stop` and `Drain` -/

namespace SdSys
variable {s0 : StatsD} (x : Exec SdSys.step (SdSys.init s0))

theorem run_between (n k : Nat) : (x.st n).run (x.between n k) = some (x.st (n + k)) := by
  induction k with
  | zero => rfl
  | succ k ih =>
    rw [Exec.between, SdSys.run_append, ih]
    rcases x.cases_lab (n + k) with ⟨e, e'⟩ | ⟨l, e, e'⟩
    · simp [e, SdSys.run, ← Nat.add_assoc, e']
    · simp [e, SdSys.run, ← Nat.add_assoc, e']

theorem works_between (n k : Nat) : works (x.between n (k + 1)) = works (x.between n k) + (if x.lab (n + k) = some .work then 1 else 0) := by
  simp only [Exec.between, works, List.count_append]
  cases x.lab (n + k) with
  | none => simp
  | some l => by_cases h : l = .work <;> simp [h]

/-- the worker proceeds unless it is blocked. -/
theorem proceeds (hup : ∀ n, Up (x.st n)) (fw : x.WeakFair (fun l => l = .work)) (fd : x.WeakFair (fun l => ∃ i, l = .drained i)) :
    x.WeakFair (fun l => l = .work ∨ ∃ i, l = .drained i) := by
  intro n hn
  by_contra hc
  have hno : ∀ m, n ≤ m → ∀ l, x.lab m = some l → l ≠ .work ∧ ∀ i, l ≠ .drained i := by
    intro m hm l hl
    exact ⟨fun h => hc ⟨m, hm, l, .inl h, hl⟩, fun i hi => hc ⟨m, hm, l, .inr ⟨i, hi⟩, hl⟩⟩
  have hw : ∀ m, n ≤ m → (x.st m).worker = (x.st n).worker ∧ ∃ t, (x.st m).q = (x.st n).q ++ t := by
    intro m hm
    induction m, hm using Nat.le_induction with
    | base => exact ⟨rfl, [], by simp⟩
    | succ m hm ih =>
      obtain ⟨h1, t, h2⟩ := ih
      rcases x.cases_lab m with ⟨_, e⟩ | ⟨l, hl, e⟩
      · rw [e]; exact ⟨h1, t, h2⟩
      · obtain ⟨g1, g2⟩ := hno m hm l hl
        have g3 : ∀ i, l ≠ .stopped i := by rintro i rfl; simp [SdSys.step, (hup m).stoppers] at e
        refine ⟨(worker_step e g1 g2 g3).trans h1, ?_⟩
        rcases step_msgs e with ⟨k1, _⟩ | ⟨k1, _⟩
        · exact ⟨t ++ msgs [l], by rw [← k1, h2, List.append_assoc]⟩
        · exact absurd k1 g1
  have stop : ∀ P : Prop, (∀ m, n ≤ m → (x.st m).step .work ≠ none) → P := by
    intro P h
    obtain ⟨m, hm, l, rfl, hl⟩ := fw n (fun m hm => ⟨_, rfl, Option.isSome_iff_ne_none.2 (h m hm)⟩)
    exact absurd rfl (hno m hm _ hl).1
  cases hw0 : (x.st n).worker with
  | stopping => exact (hup n).stopping hw0
  | halted => exact (hup n).halted hw0
  | drainDone =>
    obtain ⟨m, hm, l, ⟨i, rfl⟩, hl⟩ := fd n (fun m hm => by
      obtain ⟨i, hi⟩ := (hup m).tell ((hw m hm).1.trans hw0)
      exact ⟨_, ⟨i, rfl⟩, hi⟩)
    exact (hno m hm _ hl).2 i rfl
  | draining =>
    refine stop _ (fun m hm => Option.isSome_iff_ne_none.1 ?_)
    have h1 := (hw m hm).1.trans hw0
    cases hq : (x.st m).q with
    | nil => simp [SdSys.step, SdSys.work, h1, hq]
    | cons _ _ => exact Receiving.work (.inr h1) (by rw [hq]; simp)
  | idle =>
    obtain ⟨l, hl, hs⟩ := hn n (Nat.le_refl _)
    have hq : (x.st n).q ≠ [] := by
      intro hq
      rcases hl with rfl | ⟨i, rfl⟩
      · simp [SdSys.step, SdSys.work, hw0, hq] at hs
      · simp [SdSys.step, hw0] at hs
    refine stop _ (fun m hm => Option.isSome_iff_ne_none.1 ?_)
    obtain ⟨h1, t, h2⟩ := hw m hm
    exact Receiving.work (.inl (h1.trans hw0)) (by rw [h2]; simp [hq])

end SdSys

/-- C86: `Stop` returns, when no `Drain` is under way and there is no other `Stop`: whatever is emitted meanwhile.  (Otherwise see C32.) -/
theorem C86_statsd_stop (o : StatsDOpts) (x : Exec SdSys.step (SdSys.init (fresh o))) (n i : Nat) (h : x.lab n = some (.stop i))
    (honce : ∀ m j, x.lab m = some (.stop j) → m = n) (hsolo : Solo (x.trace n)) (hdone : drainCalls (x.trace n) = drainReturns (x.trace n))
    (fw : x.WeakFair (fun l => l = .work)) (fs : x.WeakFair (fun l => l = .stopped i)) : ∃ m, n < m ∧ x.lab m = some (.stopped i) := by
  by_contra hc
  have hno : ∀ m, n < m → x.lab m ≠ some (.stopped i) := fun m hm he => hc ⟨m, hm, he⟩
  have key : ∀ k, works (x.between (n + 1) k) ≤ (x.st n).q.length + 1 ∧
      (works (x.between (n + 1) k) < (x.st n).q.length + 1 → ((x.st (n + 1 + k)).step .work).isSome) ∧
      (works (x.between (n + 1) k) = (x.st n).q.length + 1 → ((x.st (n + 1 + k)).step (.stopped i)).isSome) := by
    intro k
    refine C32_stop_returns_partial o (x.trace n) (x.between (n + 1) k) i (x.st n) _ (SdSys.run_trace x n) ?_ hsolo hdone ?_ ?_ ?_
    · have := SdSys.run_between x n (k + 1)
      rw [Exec.between_cons, h, Option.toList_some, List.singleton_append] at this
      rw [this, show n + (k + 1) = n + 1 + k by omega]
    · intro j hj
      obtain ⟨m, hm, e⟩ := x.mem_trace.1 hj
      have := honce m j e; omega
    · intro j hj
      obtain ⟨m, hm, _, e⟩ := x.mem_between.1 hj
      have := honce m j e; omega
    · intro hj
      obtain ⟨m, hm, _, e⟩ := x.mem_between.1 hj
      exact hno m (by omega) e
  obtain ⟨m, _, hm⟩ := Exec.reaches (f := fun k => works (x.between (n + 1) k)) (n := 0) (N := (x.st n).q.length + 1)
    (fun k => by simp only [SdSys.works_between]; omega)
    (by
      intro m _ hlt
      by_contra hng
      have hmono : ∀ k, m ≤ k → works (x.between (n + 1) k) = works (x.between (n + 1) m) := by
        intro k hk
        induction k, hk using Nat.le_induction with
        | base => rfl
        | succ k hk ih =>
          by_contra hne
          refine hng ⟨k + 1, by omega, ?_⟩
          have := SdSys.works_between x (n + 1) k
          show works (x.between (n + 1) m) < works (x.between (n + 1) (k + 1))
          omega
      obtain ⟨t, ht, l, rfl, hl⟩ := fw (n + 1 + m) (fun t ht => by
        obtain ⟨k, rfl⟩ : ∃ k, t = n + 1 + k := ⟨t - (n + 1), by omega⟩
        have e := hmono k (by omega)
        exact ⟨_, rfl, (key k).2.1 (by show works (x.between (n + 1) k) < _; omega)⟩)
      obtain ⟨k, rfl⟩ : ∃ k, t = n + 1 + k := ⟨t - (n + 1), by omega⟩
      have e1 := hmono k (by omega)
      have e2 := hmono (k + 1) (by omega)
      rw [SdSys.works_between, if_pos hl] at e2
      omega)
  obtain ⟨t, ht, l, rfl, hl⟩ := fs (n + 1 + m) (fun t ht => by
    obtain ⟨k, rfl⟩ : ∃ k, t = n + 1 + k := ⟨t - (n + 1), by omega⟩
    have h1 := hm k (by omega)
    have h2 := key k
    exact ⟨_, rfl, h2.2.2 (Nat.le_antisymm h2.1 h1)⟩)
  exact hno t (by omega) hl

/-- C86, partial: `Drain` returns, when drains do not overlap, `Stop` is not called, and from some time on nothing more is sent to the sink.
Missing: drains while others go on emitting, for which it is false (`C86_statsd_drain_false`). -/
theorem C86_statsd_drain_partial (o : StatsDOpts) (x : Exec SdSys.step (SdSys.init (fresh o))) (n i : Nat) (h : x.lab n = some (.drain i))
    (hns : ∀ n i, x.lab n ≠ some (.stop i)) (hsolo : ∀ m, Solo (x.trace m))
    (hquiet : ∃ t, ∀ m l, t ≤ m → x.lab m = some l → l = .work ∨ ∃ j, l = .drained j)
    (fw : x.WeakFair (fun l => l = .work)) (fd : x.WeakFair (fun l => ∃ i, l = .drained i)) : ∃ m, n < m ∧ x.lab m = some (.drained i) := by
  by_contra hc
  have hno : ∀ m, n < m → x.lab m ≠ some (.drained i) := fun m hm he => hc ⟨m, hm, he⟩
  obtain ⟨t, ht⟩ := hquiet
  have hmid : ∀ k, SdLab.drained i ∉ x.between (n + 1) k := by
    intro k hj
    obtain ⟨m, hm, _, e⟩ := x.mem_between.1 hj
    exact hno m (by omega) e
  have htr : ∀ k, x.trace (n + 1 + k) = x.trace n ++ .drain i :: x.between (n + 1) k := by
    intro k
    rw [x.trace_between, Exec.trace, h]; simp
  have key : ∀ k, (((x.st (n + 1 + k)).step .work).isSome ∨ ((x.st (n + 1 + k)).step (.drained i)).isSome) ∧
      works (x.between (n + 1) k) ≤ (x.st n).q.length + enqs (x.between (n + 1) k) + 2 := by
    intro k
    refine C32_drain_returns_partial o (x.trace n) (x.between (n + 1) k) i (x.st n) _ (SdSys.run_trace x n) ?_ ?_ ?_ (hmid k)
    · have := SdSys.run_between x n (k + 1)
      rw [Exec.between_cons, h, Option.toList_some, List.singleton_append] at this
      rw [this, show n + (k + 1) = n + 1 + k by omega]
    · rw [← htr]; exact hsolo _
    · rw [← htr]
      intro j hj
      obtain ⟨m, _, e⟩ := x.mem_trace.1 hj
      exact hns m j e
  have henq : ∀ k, enqs (x.between (n + 1) k) ≤ t := by
    have : ∀ k, enqs (x.between (n + 1) k) ≤ min k t := by
      intro k
      induction k with
      | zero => simp [Exec.between, enqs]
      | succ k ih =>
        have happ : ∀ a b, enqs (a ++ b) = enqs a + enqs b := fun a b => by simp [enqs, List.countP_append]
        rw [Exec.between, happ]
        cases hl : x.lab (n + 1 + k) with
        | none =>
          have : enqs (Option.none (α := SdLab)).toList = 0 := rfl
          omega
        | some l =>
          have h1 : enqs (some l).toList ≤ 1 := List.countP_le_length
          by_cases hk : k < t
          · omega
          · have h0 : enqs (some l).toList = 0 := by
              rcases ht (n + 1 + k) l (by omega) hl with rfl | ⟨j, rfl⟩ <;> rfl
            omega
    intro k; have := this k; omega
  have hfair := SdSys.proceeds x (SdSys.up x hns) fw fd
  -- the worker would make too many steps
  obtain ⟨m, _, hm⟩ := Exec.reaches (f := fun k => works (x.between (n + 1) k)) (n := 0) (N := (x.st n).q.length + t + 3)
    (fun k => by simp only [SdSys.works_between]; omega)
    (by
      intro m _ hlt
      obtain ⟨r, hr, l, hl, hlr⟩ := hfair (n + 1 + m) (fun r hr => by
        obtain ⟨k, rfl⟩ : ∃ k, r = n + 1 + k := ⟨r - (n + 1), by omega⟩
        rcases (key k).1 with h1 | h1
        · exact ⟨_, .inl rfl, h1⟩
        · exact ⟨_, .inr ⟨i, rfl⟩, h1⟩)
      obtain ⟨k, rfl⟩ : ∃ k, r = n + 1 + k := ⟨r - (n + 1), by omega⟩
      rcases hl with rfl | ⟨j, rfl⟩
      · refine ⟨k + 1, by omega, ?_⟩
        have hmono : works (x.between (n + 1) m) ≤ works (x.between (n + 1) k) := by
          refine monotone_nat_of_le_succ (f := fun k => works (x.between (n + 1) k)) (fun k => ?_) (by omega : m ≤ k)
          simp only [SdSys.works_between]; omega
        simp only [SdSys.works_between, if_pos hlr]; omega
      · -- only this drain is under way
        exfalso
        obtain ⟨ops, _, _, hb⟩ := busy_after_call o (x.trace n) (x.between (n + 1) k) i (x.st (n + 1 + k))
          (by rw [show x.trace n ++ [.drain i] ++ x.between (n + 1) k = x.trace (n + 1 + k) by rw [htr]; simp]; exact SdSys.run_trace x _)
          (by rw [show x.trace n ++ [.drain i] ++ x.between (n + 1) k = x.trace (n + 1 + k) by rw [htr]; simp]; exact hsolo _) (hmid k)
        have hs := x.next _ _ hlr
        simp only [SdSys.step, hb.one, List.mem_singleton] at hs
        split at hs
        · next hcond => rw [hcond.2.1] at hlr; exact hno _ (by omega) hlr
        · cases hs)
  have h1 := hm m (Nat.le_refl _)
  have h2 := (key m).2
  have h3 := henq m
  have h1 : (x.st n).q.length + t + 3 ≤ works (x.between (n + 1) m) := h1
  omega

/-! ## Drain while others emit -/

namespace Sample
/-- the worker's sink after `k` emissions. -/
def sinkAfter (o : StatsDOpts) (c : SdCmd) : Nat → StatsD
  | 0 => fresh o
  | k + 1 => (sinkAfter o c k).processCmd c

/-- `Drain` is called, something is emitted; then in turn the worker takes an emission and something is emitted. -/
def busyLab (c : SdCmd) (n : Nat) : Option SdLab :=
  if n = 0 then some (.drain 0) else if n = 1 then some (.emit c) else if n % 2 = 0 then some .work else some (.emit c)

def busySt (o : StatsDOpts) (c : SdCmd) (n : Nat) : SdSys :=
  if n = 0 then SdSys.init (fresh o)
  else if n = 1 then ⟨[.drain 0], .idle, fresh o, [0], []⟩
  else if n = 2 then ⟨[.drain 0, .emit c], .idle, fresh o, [0], []⟩
  else if n % 2 = 1 then ⟨[.emit c], .draining, sinkAfter o c ((n - 3) / 2), [0], []⟩
  else ⟨[.emit c, .emit c], .draining, sinkAfter o c ((n - 3) / 2), [0], []⟩

theorem busy_next (o : StatsDOpts) (c : SdCmd) (n : Nat) (l : SdLab) (h : busyLab c n = some l) : (busySt o c n).step l = some (busySt o c (n + 1)) := by
  match n with
  | 0 => simp [busyLab] at h; subst h; simp [busySt, SdSys.step, SdSys.init]
  | 1 => simp [busyLab] at h; subst h; simp [busySt, SdSys.step]
  | 2 => simp [busyLab] at h; subst h; simp [busySt, SdSys.step, SdSys.work, sinkAfter]
  | k + 3 =>
    rcases Nat.even_or_odd' k with ⟨j, rfl | rfl⟩
    · have h1 : (2 * j + 3) % 2 = 1 := by omega
      have h2 : (2 * j + 3 + 1) % 2 = 0 := by omega
      simp [busyLab, h1] at h
      subst h
      have h5 : (2 * j + 1) / 2 = j := by omega
      simp [busySt, h1, h2, h5, SdSys.step]
    · have h1 : (2 * j + 1 + 3) % 2 = 0 := by omega
      have h2 : (2 * j + 1 + 3 + 1) % 2 = 1 := by omega
      simp [busyLab, h1] at h
      subst h
      have h5 : (2 * j + 1) / 2 = j := by omega
      simp [busySt, h1, h2, h5, SdSys.step, SdSys.work, sinkAfter]

def busyExec (o : StatsDOpts) (c : SdCmd) : Exec SdSys.step (SdSys.init (fresh o)) where
  st := busySt o c
  lab := busyLab c
  start := rfl
  rest n h := by simp only [busyLab] at h; split_ifs at h
  next := busy_next o c

theorem busyLab_cases (c : SdCmd) (n : Nat) : busyLab c n = some (.drain 0) ∧ n = 0 ∨ busyLab c n = some (.emit c) ∨ busyLab c n = some .work := by
  simp only [busyLab]; split_ifs <;> simp_all
end Sample

/-- `Drain` need not return: there is a fair execution in which it is called once, `Stop` is not called, and `Drain` never returns, because whenever the worker
looks, the next emission is already there: `DRAIN_LOOP` ends only when the channel is found empty. -/
theorem C86_statsd_drain_false (o : StatsDOpts) (c : SdCmd) : ∃ x : Exec SdSys.step (SdSys.init (fresh o)),
    x.lab 0 = some (.drain 0) ∧ (∀ n i, x.lab n ≠ some (.stop i)) ∧ (∀ n i, x.lab n = some (.drain i) → n = 0) ∧
    x.StrongFair (fun l => l = .work) ∧ x.StrongFair (fun l => ∃ i, l = .drained i) ∧ (∀ n i, x.lab n ≠ some (.drained i)) := by
  refine ⟨Sample.busyExec o c, rfl, ?_, ?_, ?_, ?_, ?_⟩
  · intro n i h
    have h : Sample.busyLab c n = _ := h
    rcases Sample.busyLab_cases c n with ⟨e, _⟩ | e | e <;> rw [e] at h <;> cases h
  · intro n i h
    have h : Sample.busyLab c n = _ := h
    rcases Sample.busyLab_cases c n with ⟨_, e⟩ | e | e
    · exact e
    · rw [e] at h; cases h
    · rw [e] at h; cases h
  · intro _ n
    refine ⟨2 * n + 2, by omega, _, rfl, ?_⟩
    show Sample.busyLab c (2 * n + 2) = some .work
    simp [Sample.busyLab]
  · intro hc
    obtain ⟨m, hm, l, ⟨i, rfl⟩, hs⟩ := hc 3
    exfalso
    have : (Sample.busySt o c m).worker = .draining := by
      simp only [Sample.busySt]
      rw [if_neg (by omega), if_neg (by omega), if_neg (by omega)]
      split <;> rfl
    have hs : ((Sample.busySt o c m).step (.drained i)).isSome := hs
    simp [SdSys.step, this] at hs
  · intro n i h
    have h : Sample.busyLab c n = _ := h
    rcases Sample.busyLab_cases c n with ⟨e, _⟩ | e | e <;> rw [e] at h <;> cases h

/-- one drain does not overlap. -/
theorem SdSys.solo_of_once {o : StatsDOpts} (x : Exec SdSys.step (SdSys.init (fresh o))) (n : Nat) (h : ∀ m j, x.lab m = some (.drain j) → m = n) (m : Nat) :
    Solo (x.trace m) := by
  have hcount : ∀ m, drainCalls (x.trace m) ≤ if n < m then 1 else 0 := by
    intro m
    induction m with
    | zero => simp [Exec.trace, drainCalls]
    | succ m ih =>
      have happ : ∀ a b, drainCalls (a ++ b) = drainCalls a + drainCalls b := fun a b => by simp [drainCalls, List.countP_append]
      rw [Exec.trace, happ]
      cases hl : x.lab m with
      | none =>
        have : drainCalls (Option.none (α := SdLab)).toList = 0 := rfl
        split_ifs at ih ⊢ <;> omega
      | some l =>
        have h1 : drainCalls (some l).toList ≤ 1 := List.countP_le_length
        by_cases hm : m = n
        · subst hm; rw [if_neg (by omega)] at ih; rw [if_pos (by omega)]; omega
        · have h0 : drainCalls (some l).toList = 0 := by
            cases l with
            | drain j => exact absurd (h m j hl) hm
            | _ => rfl
          split_ifs at ih ⊢ <;> omega
  intro pre i hp
  have hlt : drainCalls (pre ++ [.drain i]) ≤ drainCalls (x.trace m) := by
    obtain ⟨t, ht⟩ := hp
    rw [← ht]; simp [drainCalls, List.countP_append]
  have h2 : drainCalls (pre ++ [SdLab.drain i]) = drainCalls pre + 1 := by simp [drainCalls, List.countP_append]
  have h3 := hcount m
  have hpre : drainCalls pre = 0 := by split_ifs at h3 <;> omega
  obtain ⟨t, ht⟩ := (List.prefix_append pre [SdLab.drain i]).trans hp
  have hrun := SdSys.run_trace x m
  rw [← ht, SdSys.run_append] at hrun
  obtain ⟨y, hy, _⟩ := Option.bind_eq_some_iff.1 hrun
  have := drainers_count o pre y hy
  omega

namespace Sample
/-- executions that meet the hypotheses: a drain between emissions; ticks for ever; a stop. -/
def sdLive : List SdLab := [.emit (ev "a"), .drain 1, .emit (ev "b"), .work, .work, .work, .work, .drained 1, .emit (ev "c"), .work]
theorem sdLive_runs : (sdLive.foldlM SdSys.step (SdSys.init (fresh sdo))).isSome := by decide +kernel
def sdStop : List SdLab := [.emit (ev "a"), .stop 1, .emit (ev "b"), .work, .work, .stopped 1]
theorem sdStop_runs : (sdStop.foldlM SdSys.step (SdSys.init (fresh sdo))).isSome := by decide +kernel
end Sample

example : ∃ x : Exec SdSys.step (SdSys.init (fresh Sample.sdo)), (∀ n i, x.lab n ≠ some (.stop i)) ∧ x.WeakFair (fun l => l = .work) ∧
    x.WeakFair (fun l => ∃ i, l = .drained i) ∧ x.lab 1 = some (.drain 1) ∧ (∃ t, ∀ m l, t ≤ m → x.lab m = some l → l = .work ∨ ∃ j, l = .drained j) ∧
    (emissions (x.trace 9)).length = 3 ∧ ∀ m, Solo (x.trace m) := by
  have hw : ((Sample.sdLive.foldlM SdSys.step (SdSys.init (fresh Sample.sdo))).get Sample.sdLive_runs).worker = .idle := by decide +kernel
  have hq : ((Sample.sdLive.foldlM SdSys.step (SdSys.init (fresh Sample.sdo))).get Sample.sdLive_runs).q = [] := by decide +kernel
  refine ⟨Exec.script Sample.sdLive Sample.sdLive_runs, ?_, ?_, ?_, rfl, ⟨10, ?_⟩, by decide +kernel, ?_⟩
  · intro n i hn
    have : SdLab.stop i ∈ Sample.sdLive := List.mem_of_getElem? hn
    simp [Sample.sdLive] at this
  · refine (Exec.script_fair _ ?_).weak
    rintro l rfl
    simp only [SdSys.step, SdSys.work, hw, hq]
  · refine (Exec.script_fair _ ?_).weak
    rintro l ⟨i, rfl⟩
    simp [SdSys.step, hw]
  · intro m l hm hl
    have hl : Sample.sdLive[m]? = some l := hl
    rw [List.getElem?_eq_none (by simp [Sample.sdLive]; omega)] at hl
    cases hl
  · refine SdSys.solo_of_once _ 1 ?_
    intro m j hl
    have hl : Sample.sdLive[m]? = some (.drain j) := hl
    by_contra hm
    have h1 : SdLab.drain j ∈ Sample.sdLive.eraseIdx 1 := by
      rw [List.mem_eraseIdx_iff_getElem?]
      exact ⟨m, hm, hl⟩
    simp [Sample.sdLive] at h1

example : ∃ x : Exec SdSys.step (SdSys.init (fresh Sample.sdo)), x.lab 1 = some (.stop 1) ∧ (∀ m j, x.lab m = some (.stop j) → m = 1) ∧ Solo (x.trace 1) ∧
    drainCalls (x.trace 1) = drainReturns (x.trace 1) ∧ x.WeakFair (fun l => l = .work) ∧ x.WeakFair (fun l => l = .stopped 1) := by
  have hw : ((Sample.sdStop.foldlM SdSys.step (SdSys.init (fresh Sample.sdo))).get Sample.sdStop_runs).worker = .halted := by decide +kernel
  refine ⟨Exec.script Sample.sdStop Sample.sdStop_runs, rfl, ?_, ?_, by decide +kernel, ?_, ?_⟩
  · intro m j hl
    have hl : Sample.sdStop[m]? = some (.stop j) := hl
    by_contra hm
    have h1 : SdLab.stop j ∈ Sample.sdStop.eraseIdx 1 := by
      rw [List.mem_eraseIdx_iff_getElem?]
      exact ⟨m, hm, hl⟩
    simp [Sample.sdStop] at h1
  · refine SdSys.solo_of_once _ 1 ?_ 1
    intro m j hl
    have : SdLab.drain j ∈ Sample.sdStop := List.mem_of_getElem? hl
    simp [Sample.sdStop] at this
  · refine (Exec.script_fair _ ?_).weak
    rintro l rfl
    simp only [SdSys.step, SdSys.work, hw]
  · refine (Exec.script_fair _ ?_).weak
    rintro l rfl
    simp [SdSys.step, hw]

namespace Sample
/-- an emission; then the ticker and the worker take turns. -/
def tickLab (c : SdCmd) (n : Nat) : Option SdLab := if n = 0 then some (.emit c) else if n % 2 = 1 then some .work else some .tick
def tickSt (o : StatsDOpts) (c : SdCmd) (n : Nat) : SdSys :=
  if n = 0 then SdSys.init (fresh o)
  else if n = 1 then ⟨[.emit c], .idle, fresh o, [], []⟩
  else if n = 2 then ⟨[], .idle, (fresh o).processCmd c, [], []⟩
  else if n = 3 then ⟨[.flush], .idle, (fresh o).processCmd c, [], []⟩
  else if n % 2 = 0 then ⟨[], .idle, ((fresh o).processCmd c).flush, [], []⟩
  else ⟨[.flush], .idle, ((fresh o).processCmd c).flush, [], []⟩

theorem tick_next (o : StatsDOpts) (c : SdCmd) (n : Nat) (l : SdLab) (h : tickLab c n = some l) : (tickSt o c n).step l = some (tickSt o c (n + 1)) := by
  match n with
  | 0 => simp [tickLab] at h; subst h; simp [tickSt, SdSys.step, SdSys.init]
  | 1 => simp [tickLab] at h; subst h; simp [tickSt, SdSys.step, SdSys.work]
  | 2 => simp [tickLab] at h; subst h; simp [tickSt, SdSys.step]
  | 3 => simp [tickLab] at h; subst h; simp [tickSt, SdSys.step, SdSys.work]
  | k + 4 =>
    have hf : (((fresh o).processCmd c).flush).flush = ((fresh o).processCmd c).flush := by
      rw [StatsD.flush]; simp [flush_buf]
    rcases Nat.even_or_odd' k with ⟨j, rfl | rfl⟩
    · have h1 : (2 * j + 4) % 2 = 0 := by omega
      have h2 : (2 * j + 4 + 1) % 2 = 1 := by omega
      simp [tickLab, h1] at h
      subst h
      simp [tickSt, h1, h2, SdSys.step]
    · have h1 : (2 * j + 1 + 4) % 2 = 1 := by omega
      have h2 : (2 * j + 1 + 4 + 1) % 2 = 0 := by omega
      simp [tickLab, h1] at h
      subst h
      simp [tickSt, h1, h2, SdSys.step, SdSys.work, hf]

def tickExec (o : StatsDOpts) (c : SdCmd) : Exec SdSys.step (SdSys.init (fresh o)) where
  st := tickSt o c
  lab := tickLab c
  start := rfl
  rest n h := by simp only [tickLab] at h; split_ifs at h
  next := tick_next o c
end Sample

example (o : StatsDOpts) (c : SdCmd) : ∃ x : Exec SdSys.step (SdSys.init (fresh o)), (∀ n i, x.lab n ≠ some (.stop i)) ∧ (∀ n i, x.lab n ≠ some (.drain i)) ∧
    x.WeakFair (fun l => l = .work) ∧ x.WeakFair (fun l => l = .tick) ∧ emissions (x.trace 1) = [c] := by
  have hl : ∀ n, Sample.tickLab c n = some (.emit c) ∨ Sample.tickLab c n = some .work ∨ Sample.tickLab c n = some .tick := by
    intro n; simp only [Sample.tickLab]; split_ifs <;> simp
  refine ⟨Sample.tickExec o c, ?_, ?_, ?_, ?_, rfl⟩
  · intro n i h
    have h : Sample.tickLab c n = _ := h
    rcases hl n with e | e | e <;> rw [e] at h <;> cases h
  · intro n i h
    have h : Sample.tickLab c n = _ := h
    rcases hl n with e | e | e <;> rw [e] at h <;> cases h
  · intro n _
    refine ⟨2 * n + 1, by omega, _, rfl, ?_⟩
    show Sample.tickLab c (2 * n + 1) = some .work
    have : (2 * n + 1) % 2 = 1 := by omega
    simp [Sample.tickLab, this]
  · intro n _
    refine ⟨2 * n + 2, by omega, _, rfl, ?_⟩
    show Sample.tickLab c (2 * n + 2) = some .tick
    simp [Sample.tickLab]
