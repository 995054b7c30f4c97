import Verif.Model.StatsDLoop
import Verif.Props.StatsD
import Mathlib.Tactic.IntervalCases
/-!
# Properties C31, C32: Drain and Stop
`y.run tr` performs the steps `tr` of all goroutines in this order; every theorem is about all orders.
-/
open Spec StatsD SdSys

namespace Spec
/-- the emissions in a sequence of steps. -/
def emissions (tr : List SdLab) : List SdCmd := tr.filterMap (fun | .emit c => some c | _ => none)
/-- numbers of calls and returns of `Drain`. -/
def drainCalls (tr : List SdLab) : Nat := tr.countP (fun | .drain _ => true | _ => false)
def drainReturns (tr : List SdLab) : Nat := tr.countP (fun | .drained _ => true | _ => false)
/-- no two calls of `Drain` overlap. -/
def Solo (tr : List SdLab) : Prop := ∀ pre i, (pre ++ [.drain i]) <+: tr → drainCalls pre = drainReturns pre
/-- no call of `Stop`. -/
def NoStop (tr : List SdLab) : Prop := ∀ i, SdLab.stop i ∉ tr
/-- the lines of emissions. -/
def linesOf (o : StatsDOpts) (cs : List SdCmd) : Str :=
  (((cs.flatMap (metricsOf o)).filter Metric.fits).map Metric.line).flatten
end Spec

/-- emissions among queued messages. -/
def qCmds (q : List SdMsg) : List SdCmd := q.filterMap (fun | .emit c => some c | _ => none)
/-- emissions among the operations of the worker. -/
def opCmds (ops : List StatsD.Op) : List SdCmd := ops.filterMap (fun | .cmd c => some c | .flush => none)
def NoDrain (q : List SdMsg) : Prop := ∀ i, SdMsg.drain i ∉ q
def NoStopQ (q : List SdMsg) : Prop := ∀ i, SdMsg.stop i ∉ q

theorem sent_eq (o : StatsDOpts) (ops : List StatsD.Op) : ((sent o ops).map Metric.line).flatten = linesOf o (opCmds ops) := by
  unfold sent linesOf opCmds
  congr 3
  induction ops with
  | nil => rfl
  | cons op ops ih => cases op <;> simp [ih]

theorem SdSys.run_append (y : SdSys) (a b : List SdLab) : y.run (a ++ b) = (y.run a).bind (fun y' => y'.run b) := by
  induction a generalizing y with
  | nil => rfl
  | cons l a ih =>
    simp only [List.cons_append, SdSys.run]
    cases y.step l with
    | none => rfl
    | some y' => simp [ih]

theorem SdSys.run_snoc {y y' : SdSys} {tr : List SdLab} {l : SdLab} (h : y.run (tr ++ [l]) = some y') :
    ∃ z, y.run tr = some z ∧ z.step l = some y' := by
  rw [run_append] at h
  obtain ⟨z, h1, h2⟩ := Option.bind_eq_some_iff.1 h
  refine ⟨z, h1, ?_⟩
  simp only [SdSys.run] at h2
  cases hz : z.step l with
  | none => rw [hz] at h2; simp at h2
  | some w => rw [hz] at h2; simpa using h2

@[simp] theorem emissions_append (a b : List SdLab) : emissions (a ++ b) = emissions a ++ emissions b := by simp [emissions]
@[simp] theorem qCmds_append (a b : List SdMsg) : qCmds (a ++ b) = qCmds a ++ qCmds b := by simp [qCmds]
@[simp] theorem opCmds_append (a b : List StatsD.Op) : opCmds (a ++ b) = opCmds a ++ opCmds b := by simp [opCmds]

theorem run_snoc_cmd (o : StatsDOpts) (ops : List StatsD.Op) (c : SdCmd) :
    ((fresh o).run ops).processCmd c = (fresh o).run (ops ++ [.cmd c]) := by simp [StatsD.run, StatsD.step]
theorem run_snoc_flush (o : StatsDOpts) (ops : List StatsD.Op) :
    ((fresh o).run ops).flush = (fresh o).run (ops ++ [.flush]) := by simp [StatsD.run, StatsD.step]

/-- what every step does to the processed and queued emissions. -/
structure Effect (y y' : SdSys) (l : SdLab) (o : StatsDOpts) (ops ops' : List StatsD.Op) : Prop where
  sink : y'.sink = (fresh o).run ops'
  fifo : opCmds ops' ++ qCmds y'.q = opCmds ops ++ qCmds y.q ++ emissions [l]
  grows : opCmds ops <+: opCmds ops'

theorem effect {y y' : SdSys} {l : SdLab} (h : y.step l = some y') {o : StatsDOpts} {ops : List StatsD.Op}
    (hs : y.sink = (fresh o).run ops) : ∃ ops', Effect y y' l o ops ops' := by
  cases l with
  | emit c =>
    simp only [SdSys.step, Option.some.injEq] at h; subst h
    exact ⟨ops, hs, by simp [qCmds, emissions], List.prefix_rfl⟩
  | tick =>
    simp only [SdSys.step, Option.some.injEq] at h; subst h
    exact ⟨ops, hs, by simp [qCmds, emissions], List.prefix_rfl⟩
  | drain i =>
    simp only [SdSys.step] at h
    split at h
    · cases h
    · simp only [Option.some.injEq] at h; subst h
      exact ⟨ops, hs, by simp [qCmds, emissions], List.prefix_rfl⟩
  | stop i =>
    simp only [SdSys.step] at h
    split at h
    · cases h
    · simp only [Option.some.injEq] at h; subst h
      exact ⟨ops, hs, by simp [qCmds, emissions], List.prefix_rfl⟩
  | drained i =>
    simp only [SdSys.step] at h
    split at h
    · simp only [Option.some.injEq] at h; subst h
      exact ⟨ops, hs, by simp [emissions], List.prefix_rfl⟩
    · cases h
  | stopped i =>
    simp only [SdSys.step] at h
    split at h
    · simp only [Option.some.injEq] at h; subst h
      exact ⟨ops, hs, by simp [emissions], List.prefix_rfl⟩
    · cases h
  | work =>
    simp only [SdSys.step, SdSys.work] at h
    split at h <;> simp only [Option.some.injEq, reduceCtorEq] at h <;> subst h
    case h_2 c q hw hq =>
      exact ⟨ops ++ [.cmd c], by simp [hs, run_snoc_cmd], by simp [hq, qCmds, opCmds, emissions], by simp⟩
    case h_3 q hw hq =>
      exact ⟨ops ++ [.flush], by simp [hs, run_snoc_flush], by simp [hq, qCmds, opCmds, emissions], by simp⟩
    case h_4 j q hw hq =>
      exact ⟨ops, hs, by simp [hq, qCmds, emissions], List.prefix_rfl⟩
    case h_5 j q hw hq =>
      exact ⟨ops, hs, by simp [hq, qCmds, emissions], List.prefix_rfl⟩
    case h_6 hw hq =>
      exact ⟨ops ++ [.flush], by simp [hs, run_snoc_flush], by simp [qCmds, opCmds, emissions], by simp⟩
    case h_7 c q hw hq =>
      exact ⟨ops ++ [.cmd c], by simp [hs, run_snoc_cmd], by simp [hq, qCmds, opCmds, emissions], by simp⟩
    case h_8 q hw hq =>
      exact ⟨ops, hs, by simp [hq, qCmds, emissions], List.prefix_rfl⟩
    case h_9 j q hw hq =>
      exact ⟨ops, hs, by simp [hq, qCmds, emissions], List.prefix_rfl⟩
    case h_10 j q hw hq =>
      exact ⟨ops, hs, by simp [hq, qCmds, emissions], List.prefix_rfl⟩

/-- the worker processes the emissions in the order in which they were made. -/
theorem fifo (o : StatsDOpts) (tr : List SdLab) (y : SdSys) (h : (SdSys.init (fresh o)).run tr = some y) :
    ∃ ops, y.sink = (fresh o).run ops ∧ opCmds ops ++ qCmds y.q = emissions tr := by
  induction tr using snocInduction generalizing y with
  | nil =>
    simp only [SdSys.run, Option.some.injEq] at h; subst h
    exact ⟨[], rfl, rfl⟩
  | snoc tr l ih =>
    obtain ⟨z, h1, h2⟩ := SdSys.run_snoc h
    obtain ⟨ops, g1, g2⟩ := ih z h1
    obtain ⟨ops', e1, e2, _⟩ := effect h2 g1
    exact ⟨ops', e1, by rw [e2, g2, emissions_append]⟩

/-- C31 (all executions): at every moment the bytes handed to the socket so far followed by the pending ones are exactly the metrics of
the first so many emissions, in the order in which they were made; the others are still queued. -/
theorem C31_first_in_first_out (o : StatsDOpts) (tr : List SdLab) (y : SdSys) (h : (SdSys.init (fresh o)).run tr = some y) :
    ∃ done queued, done ++ queued = emissions tr ∧ qCmds y.q = queued ∧
      y.sink.packets.flatten ++ y.sink.udpBuf = linesOf o done := by
  obtain ⟨ops, h1, h2⟩ := fifo o tr y h
  refine ⟨opCmds ops, qCmds y.q, h2, rfl, ?_⟩
  have := stream_eq o ops
  rw [← h1, sent_eq] at this
  exact this

theorem drainers_count (o : StatsDOpts) (tr : List SdLab) (y : SdSys) (h : (SdSys.init (fresh o)).run tr = some y) :
    y.drainers.length + drainReturns tr = drainCalls tr := by
  induction tr using snocInduction generalizing y with
  | nil =>
    simp only [SdSys.run, Option.some.injEq] at h; subst h
    rfl
  | snoc tr l ih =>
    obtain ⟨z, h1, h2⟩ := SdSys.run_snoc h
    have := ih z h1
    cases l with
    | emit c => simp only [SdSys.step, Option.some.injEq] at h2; subst h2; simpa [drainReturns, drainCalls, List.countP_append] using this
    | tick => simp only [SdSys.step, Option.some.injEq] at h2; subst h2; simpa [drainReturns, drainCalls, List.countP_append] using this
    | drain i =>
      simp only [SdSys.step] at h2
      split at h2
      · cases h2
      · simp only [Option.some.injEq] at h2; subst h2
        simp [drainReturns, drainCalls, List.countP_append] at this ⊢
        omega
    | stop i =>
      simp only [SdSys.step] at h2
      split at h2
      · cases h2
      · simp only [Option.some.injEq] at h2; subst h2
        simpa [drainReturns, drainCalls, List.countP_append] using this
    | drained i =>
      simp only [SdSys.step] at h2
      split at h2
      · next hc =>
        simp only [Option.some.injEq] at h2; subst h2
        have hl := List.length_erase_of_mem hc.2.1
        have hpos := List.length_pos_of_mem hc.2.1
        simp [drainReturns, drainCalls, List.countP_append, hl] at this ⊢
        omega
      · cases h2
    | stopped i =>
      simp only [SdSys.step] at h2
      split at h2
      · simp only [Option.some.injEq] at h2; subst h2
        simpa [drainReturns, drainCalls, List.countP_append] using this
      · cases h2
    | work =>
      simp only [SdSys.step, SdSys.work] at h2
      split at h2 <;> simp only [Option.some.injEq, reduceCtorEq] at h2 <;> subst h2 <;>
        simpa [drainReturns, drainCalls, List.countP_append] using this

/-- no drain is under way. -/
structure Calm (y : SdSys) : Prop where
  none : y.drainers = []
  q : NoDrain y.q
  w : y.worker ≠ .draining ∧ y.worker ≠ .drainDone

/-- drain `i` is the only one under way; `n` emissions precede it. -/
structure Busy (i : Nat) (before : List SdCmd) (y : SdSys) (done : List SdCmd) : Prop where
  one : y.drainers = [i]
  st : (∃ a b, y.q = a ++ .drain i :: b ∧ NoDrain a ∧ NoDrain b ∧ before <+: done ++ qCmds a ∧
          y.worker ≠ .draining ∧ y.worker ≠ .drainDone) ∨
       (NoDrain y.q ∧ before <+: done ∧ (y.worker = .draining ∨ (y.worker = .drainDone ∧ y.sink.udpBuf = [])))

theorem NoDrain.append {a b : List SdMsg} (ha : NoDrain a) (hb : NoDrain b) : NoDrain (a ++ b) := by
  intro i hi; rcases List.mem_append.1 hi with h | h
  · exact ha i h
  · exact hb i h
theorem NoDrain.tail {m : SdMsg} {q : List SdMsg} (h : NoDrain (m :: q)) : NoDrain q := fun i hi => h i (by simp [hi])

theorem Busy.enq {i : Nat} {before : List SdCmd} {y : SdSys} {done : List SdCmd} (h : Busy i before y done) (m : SdMsg)
    (hm : ∀ j, m ≠ .drain j) (ss : List Nat) : Busy i before { y with q := y.q ++ [m], stoppers := ss } done := by
  have hnm : NoDrain [m] := fun j hj => hm j (List.mem_singleton.1 hj).symm
  refine ⟨h.one, ?_⟩
  rcases h.st with ⟨a, b, h1, h2, h3, h4, h5⟩ | ⟨h1, h2, h3⟩
  · exact .inl ⟨a, b ++ [m], by simp [h1], h2, h3.append hnm, h4, h5⟩
  · exact .inr ⟨h1.append hnm, h2, h3⟩

theorem Calm.enq {y : SdSys} (h : Calm y) (m : SdMsg) (hm : ∀ j, m ≠ .drain j) (ss : List Nat) :
    Calm { y with q := y.q ++ [m], stoppers := ss } := by
  have hnm : NoDrain [m] := fun j hj => hm j (List.mem_singleton.1 hj).symm
  exact ⟨h.none, h.q.append hnm, h.w⟩

theorem flush_buf (s : StatsD) : s.flush.udpBuf = [] := by
  unfold StatsD.flush
  split
  · rfl
  · next h => simpa using h

/-- while drain `i` is the only one, every step but its return keeps it so. -/
theorem Busy.step {i : Nat} {before : List SdCmd} {y y' : SdSys} {l : SdLab} {o : StatsDOpts} {ops : List StatsD.Op}
    (hs : y.sink = (fresh o).run ops) (hb : Busy i before y (opCmds ops)) (h : y.step l = some y')
    (hl : l ≠ .drained i) (hd : ∀ j, l ≠ .drain j) :
    ∃ ops', Effect y y' l o ops ops' ∧ Busy i before y' (opCmds ops') := by
  cases l with
  | emit c =>
    simp only [SdSys.step, Option.some.injEq] at h; subst h
    exact ⟨ops, ⟨hs, by simp [qCmds, emissions], List.prefix_rfl⟩, hb.enq _ (by simp) _⟩
  | tick =>
    simp only [SdSys.step, Option.some.injEq] at h; subst h
    exact ⟨ops, ⟨hs, by simp [qCmds, emissions], List.prefix_rfl⟩, hb.enq _ (by simp) _⟩
  | drain j => exact absurd rfl (hd j)
  | stop j =>
    simp only [SdSys.step] at h
    split at h
    · cases h
    · simp only [Option.some.injEq] at h; subst h
      exact ⟨ops, ⟨hs, by simp [qCmds, emissions], List.prefix_rfl⟩, hb.enq _ (by simp) _⟩
  | drained j =>
    simp only [SdSys.step] at h
    split at h
    · next hc =>
      have : j = i := by simpa [hb.one] using hc.2.1
      subst this
      exact absurd rfl hl
    · cases h
  | stopped j =>
    simp only [SdSys.step] at h
    split at h
    · next hc =>
      simp only [Option.some.injEq] at h; subst h
      refine ⟨ops, ⟨hs, by simp [emissions], List.prefix_rfl⟩, hb.one, ?_⟩
      rcases hb.st with ⟨a, b, h1, h2, h3, h4, h5⟩ | ⟨h1, h2, h3⟩
      · exact .inl ⟨a, b, h1, h2, h3, h4, by simp, by simp⟩
      · rw [hc.1] at h3; simp at h3
    · cases h
  | work =>
    simp only [SdSys.step, SdSys.work] at h
    rcases hb.st with ⟨a, b, h1, h2, h3, h4, h5⟩ | ⟨h1, h2, h3⟩
    · -- the drain is still queued
      split at h <;> simp only [Option.some.injEq, reduceCtorEq] at h
      case h_2 c q hw hq =>
        subst h
        cases a with
        | nil => rw [h1] at hq; simp at hq
        | cons m a =>
          rw [h1] at hq; simp only [List.cons_append, List.cons.injEq] at hq
          obtain ⟨rfl, rfl⟩ := hq
          refine ⟨ops ++ [.cmd c], ⟨by simp [hs, run_snoc_cmd], by simp [h1, qCmds, opCmds, emissions], by simp⟩, hb.one,
            .inl ⟨a, b, rfl, h2.tail, h3, ?_, h5⟩⟩
          simpa [opCmds, qCmds] using h4
      case h_3 q hw hq =>
        subst h
        cases a with
        | nil => rw [h1] at hq; simp at hq
        | cons m a =>
          rw [h1] at hq; simp only [List.cons_append, List.cons.injEq] at hq
          obtain ⟨rfl, rfl⟩ := hq
          refine ⟨ops ++ [.flush], ⟨by simp [hs, run_snoc_flush], by simp [h1, qCmds, opCmds, emissions], by simp⟩, hb.one,
            .inl ⟨a, b, rfl, h2.tail, h3, ?_, h5⟩⟩
          simpa [opCmds, qCmds] using h4
      case h_4 j q hw hq =>
        subst h
        cases a with
        | nil =>
          rw [h1] at hq; simp only [List.nil_append, List.cons.injEq] at hq
          obtain ⟨_, rfl⟩ := hq
          refine ⟨ops, ⟨hs, by simp [h1, qCmds, emissions], List.prefix_rfl⟩, hb.one, .inr ⟨h3, by simpa [qCmds] using h4, .inl rfl⟩⟩
        | cons m a =>
          rw [h1] at hq; simp only [List.cons_append, List.cons.injEq] at hq
          obtain ⟨rfl, rfl⟩ := hq
          exact absurd (by simp) (h2 j)
      case h_5 j q hw hq =>
        subst h
        cases a with
        | nil => rw [h1] at hq; simp at hq
        | cons m a =>
          rw [h1] at hq; simp only [List.cons_append, List.cons.injEq] at hq
          obtain ⟨rfl, rfl⟩ := hq
          refine ⟨ops, ⟨hs, by simp [h1, qCmds, emissions], List.prefix_rfl⟩, hb.one,
            .inl ⟨a, b, rfl, h2.tail, h3, by simpa [qCmds] using h4, by simp, by simp⟩⟩
      all_goals next hw _ => first | exact absurd hw h5.1 | skip
    · -- the worker is draining
      split at h <;> simp only [Option.some.injEq, reduceCtorEq] at h
      case h_6 hw hq =>
        subst h
        exact ⟨ops ++ [.flush], ⟨by simp [hs, run_snoc_flush], by simp [hq, qCmds, opCmds, emissions], by simp⟩, hb.one,
          .inr ⟨h1, by simpa [opCmds] using h2, .inr ⟨rfl, flush_buf _⟩⟩⟩
      case h_7 c q hw hq =>
        subst h
        refine ⟨ops ++ [.cmd c], ⟨by simp [hs, run_snoc_cmd], by simp [hq, qCmds, opCmds, emissions], by simp⟩, hb.one,
          .inr ⟨fun j hj => h1 j (by rw [hq]; simp [hj]), ?_, .inl hw⟩⟩
        rw [opCmds_append]; exact h2.trans (List.prefix_append _ _)
      case h_8 q hw hq =>
        subst h
        exact ⟨ops, ⟨hs, by simp [hq, qCmds, emissions], List.prefix_rfl⟩, hb.one,
          .inr ⟨fun j hj => h1 j (by rw [hq]; simp [hj]), h2, .inl hw⟩⟩
      case h_9 k q hw hq =>
        subst h
        exact ⟨ops, ⟨hs, by simp [hq, qCmds, emissions], List.prefix_rfl⟩, hb.one,
          .inr ⟨fun j hj => h1 j (by rw [hq]; simp [hj]), h2, .inl hw⟩⟩
      case h_10 k q hw hq =>
        subst h
        exact ⟨ops, ⟨hs, by simp [hq, qCmds, emissions], List.prefix_rfl⟩, hb.one,
          .inr ⟨fun j hj => h1 j (by rw [hq]; simp [hj]), h2, .inl hw⟩⟩
      all_goals next hw _ => rw [hw] at h3; simp at h3

theorem Busy.returns {i : Nat} {before : List SdCmd} {y y' : SdSys} {done : List SdCmd} (hb : Busy i before y done)
    (h : y.step (.drained i) = some y') : Calm y' ∧ y'.sink.udpBuf = [] ∧ before <+: done ∧ y'.sink = y.sink := by
  simp only [SdSys.step] at h
  split at h
  · next hc =>
    simp only [Option.some.injEq] at h; subst h
    rcases hb.st with ⟨a, b, h1, h2, h3, h4, h5⟩ | ⟨h1, h2, h3⟩
    · exact absurd hc.1 h5.2
    · refine ⟨⟨by simp [hb.one], h1, by simp⟩, ?_, h2, rfl⟩
      rw [hc.1] at h3; simpa using h3
  · cases h

theorem Calm.call {y y' : SdSys} {i : Nat} (hc : Calm y) (h : y.step (.drain i) = some y') (done : List SdCmd) :
    Busy i (done ++ qCmds y.q) y' done ∧ y'.sink = y.sink := by
  simp only [SdSys.step, hc.none, List.not_mem_nil, if_false, Option.some.injEq] at h
  subst h
  exact ⟨⟨rfl, .inl ⟨y.q, [], rfl, hc.q, by intro j hj; simp at hj, List.prefix_rfl, hc.w⟩⟩, rfl⟩

theorem Calm.step {y y' : SdSys} {l : SdLab} (hc : Calm y) (h : y.step l = some y') (hd : ∀ j, l ≠ .drain j) : Calm y' := by
  cases l with
  | emit c => simp only [SdSys.step, Option.some.injEq] at h; subst h; exact hc.enq _ (by simp) _
  | tick => simp only [SdSys.step, Option.some.injEq] at h; subst h; exact hc.enq _ (by simp) _
  | drain j => exact absurd rfl (hd j)
  | stop j =>
    simp only [SdSys.step] at h
    split at h
    · cases h
    · simp only [Option.some.injEq] at h; subst h; exact hc.enq _ (by simp) _
  | drained j =>
    simp only [SdSys.step] at h
    split at h
    · next hx => rw [hc.none] at hx; simp at hx
    · cases h
  | stopped j =>
    simp only [SdSys.step] at h
    split at h
    · simp only [Option.some.injEq] at h; subst h; exact ⟨hc.none, hc.q, by simp⟩
    · cases h
  | work =>
    simp only [SdSys.step, SdSys.work] at h
    split at h <;> simp only [Option.some.injEq, reduceCtorEq] at h
    case h_2 c q hw hq => subst h; exact ⟨hc.none, fun j hj => hc.q j (by rw [hq]; simp [hj]), hc.w⟩
    case h_3 q hw hq => subst h; exact ⟨hc.none, fun j hj => hc.q j (by rw [hq]; simp [hj]), hc.w⟩
    case h_4 j q hw hq => exact absurd (by rw [hq]; simp) (hc.q j)
    case h_5 j q hw hq => subst h; exact ⟨hc.none, fun j hj => hc.q j (by rw [hq]; simp [hj]), by simp⟩
    all_goals next hw _ => exact absurd hw hc.w.1

theorem Spec.Solo.prefix {a b : List SdLab} (h : Solo b) (hp : a <+: b) : Solo a := fun pre i hpre => h pre i (hpre.trans hp)

/-- in executions without overlapping drains, either none is under way or exactly one is. -/
theorem solo_inv (o : StatsDOpts) (tr : List SdLab) (y : SdSys) (h : (SdSys.init (fresh o)).run tr = some y) (hsolo : Solo tr) :
    Calm y ∨ ∃ i before ops, y.sink = (fresh o).run ops ∧ Busy i before y (opCmds ops) := by
  induction tr using snocInduction generalizing y with
  | nil =>
    simp only [SdSys.run, Option.some.injEq] at h; subst h
    exact .inl ⟨rfl, by intro i hi; simp [SdSys.init] at hi, by simp [SdSys.init]⟩
  | snoc tr l ih =>
    obtain ⟨z, h1, h2⟩ := SdSys.run_snoc h
    have hcount := drainers_count o tr z h1
    rcases ih z h1 (hsolo.prefix (List.prefix_append _ _)) with hc | ⟨i, before, ops, hs, hb⟩
    · by_cases hd : ∃ j, l = .drain j
      · obtain ⟨j, rfl⟩ := hd
        obtain ⟨ops, g1, _⟩ := fifo o tr z h1
        obtain ⟨hb, e⟩ := hc.call h2 (opCmds ops)
        exact .inr ⟨j, _, ops, by rw [e, g1], hb⟩
      · exact .inl (hc.step h2 (by simpa using hd))
    · have hnd : ∀ j, l ≠ .drain j := by
        rintro j rfl
        have := hsolo tr j List.prefix_rfl
        rw [hb.one] at hcount
        simp at hcount
        omega
      by_cases hl : l = .drained i
      · subst hl; exact .inl (hb.returns h2).1
      · obtain ⟨ops', e, hb'⟩ := hb.step hs h2 hl hnd
        exact .inr ⟨i, before, ops', e.sink, hb'⟩

theorem calm_before_drain {o : StatsDOpts} {pre : List SdLab} {i : Nat} {y : SdSys} (h : (SdSys.init (fresh o)).run pre = some y)
    (hsolo : Solo (pre ++ [.drain i])) : Calm y := by
  rcases solo_inv o pre y h (hsolo.prefix (List.prefix_append _ _)) with hc | ⟨j, before, ops, _, hb⟩
  · exact hc
  · have := hsolo pre i List.prefix_rfl
    have hcount := drainers_count o pre y h
    rw [hb.one] at hcount
    simp at hcount
    omega

/-- the single drain from its call on. -/
theorem busy_after_call (o : StatsDOpts) (pre mid : List SdLab) (i : Nat) (y : SdSys)
    (h : (SdSys.init (fresh o)).run (pre ++ [.drain i] ++ mid) = some y)
    (hsolo : Solo (pre ++ [.drain i] ++ mid)) (hmid : SdLab.drained i ∉ mid) :
    ∃ ops, y.sink = (fresh o).run ops ∧ opCmds ops ++ qCmds y.q = emissions (pre ++ [.drain i] ++ mid) ∧
      Busy i (emissions pre) y (opCmds ops) := by
  induction mid using snocInduction generalizing y with
  | nil =>
    rw [List.append_nil] at h hsolo ⊢
    obtain ⟨z, h1, h2⟩ := SdSys.run_snoc h
    obtain ⟨ops, g1, g2⟩ := fifo o pre z h1
    obtain ⟨hb, e⟩ := (calm_before_drain h1 hsolo).call h2 (opCmds ops)
    obtain ⟨ops', e1, e2, e3⟩ := effect h2 g1
    simp only [SdSys.step] at h2
    split at h2
    · cases h2
    · simp only [Option.some.injEq] at h2
      refine ⟨ops, by rw [e, g1], ?_, by rw [← g2]; exact hb⟩
      rw [← h2]
      simp [qCmds, emissions] at g2 ⊢
      exact g2
  | snoc mid l ih =>
    rw [← List.append_assoc] at h hsolo
    obtain ⟨z, h1, h2⟩ := SdSys.run_snoc h
    obtain ⟨ops, g1, g2, hb⟩ := ih z h1 (hsolo.prefix (List.prefix_append _ _)) (fun hm => hmid (by simp [hm]))
    have hnd : ∀ j, l ≠ .drain j := by
      rintro j rfl
      have hc := hsolo _ j List.prefix_rfl
      have hcount := drainers_count o _ z h1
      rw [hb.one] at hcount
      simp only [List.length_singleton] at hcount
      omega
    obtain ⟨ops', e, hb'⟩ := hb.step g1 h2 (by rintro rfl; exact hmid (by simp)) hnd
    exact ⟨ops', e.sink, by rw [e.fifo, g2, ← emissions_append, ← List.append_assoc], hb'⟩

/-- C31, partial: when calls of `Drain` do not overlap, then at the moment a `Drain` returns the datagrams sent carry exactly the
metrics of all the emissions made before it was called, and of some of the later ones, and nothing is pending.
Missing: overlapping calls of `Drain`, for which it is false (`C31_two_drains_false`). -/
theorem C31_drain_sends_everything_partial (o : StatsDOpts) (pre mid : List SdLab) (i : Nat) (y : SdSys)
    (h : (SdSys.init (fresh o)).run (pre ++ [.drain i] ++ mid ++ [.drained i]) = some y)
    (hsolo : Solo (pre ++ [.drain i] ++ mid)) (hmid : SdLab.drained i ∉ mid) :
    ∃ later, later <+: emissions mid ∧ y.sink.packets.flatten = linesOf o (emissions pre ++ later) ∧ y.sink.udpBuf = [] := by
  obtain ⟨z, h1, h2⟩ := SdSys.run_snoc h
  obtain ⟨ops, g1, g2, hb⟩ := busy_after_call o pre mid i z h1 hsolo hmid
  obtain ⟨_, r2, r3, r4⟩ := hb.returns h2
  obtain ⟨later, hl⟩ := r3
  refine ⟨later, ?_, ?_, r2⟩
  · rw [← hl, emissions_append, emissions_append] at g2
    have : later ++ qCmds z.q = emissions mid := by
      have e : emissions [SdLab.drain i] = [] := rfl
      rw [e, List.append_nil, List.append_assoc] at g2
      exact List.append_cancel_left g2
    exact ⟨_, this⟩
  · have := stream_eq o ops
    rw [sent_eq, ← hl, ← g1, ← r4] at this
    rw [← this, stream, r2, List.append_nil]

namespace Sample
def ev (n : String) : SdCmd := .event (bs "j") (bs n)
def sdTr : List SdLab := [.emit (ev "a"), .tick, .emit (ev "b")] ++ [.drain 1] ++
  [.work, .emit (ev "c"), .stop 7, .work, .work, .work, .work, .work, .work, .emit (ev "d")]
end Sample

/-- a case that meets the hypotheses: an emission is made during the drain, and a stop arrives. -/
example : Solo Sample.sdTr ∧ SdLab.drained 1 ∉ Sample.sdTr ∧
    (((SdSys.init (fresh Sample.sdo)).run (Sample.sdTr ++ [.drained 1])).map (fun y => (y.worker, y.sink.packets.length))) =
      some (.idle, 2) := by
  refine ⟨?_, by decide +kernel, by decide +kernel⟩
  intro pre i hp
  have hlen := hp.length_le
  have : ∀ n < 14, ∀ i, (Sample.sdTr.take n ++ [.drain i]) = Sample.sdTr.take (n + 1) →
      drainCalls (Sample.sdTr.take n) = drainReturns (Sample.sdTr.take n) := by
    intro n hn i
    interval_cases n <;> simp [Sample.sdTr, drainCalls, drainReturns]
  have hpre : pre <+: Sample.sdTr := (List.prefix_append _ _).trans hp
  have e1 := List.prefix_iff_eq_take.1 hpre
  have e2 := List.prefix_iff_eq_take.1 hp
  have hlen' : pre.length < 14 := by
    have : Sample.sdTr.length = 14 := by decide +kernel
    simp at hlen; omega
  have := this pre.length hlen' i (by rw [← e1]; rw [e2]; simp)
  rw [← e1] at this; exact this

/-- C31 is false when two calls of `Drain` overlap: call 2 is made after the emission of "b", takes the token meant for call 1, and
returns while "b" is still queued and no datagram carries it. -/
theorem C31_two_drains_false :
    ((SdSys.init (fresh Sample.sdo)).run [.drain 1, .work, .work, .emit (Sample.ev "b"), .drain 2, .drained 2]).map
      (fun y => (y.sink.packets, y.q)) = some ([], [.emit (Sample.ev "b"), .drain 2]) := by decide +kernel

/-! ## C32 -/

theorem no_stopped {y y' : SdSys} {tr : List SdLab} (h : y.run tr = some y') (hq : NoStopQ y.q) (hw : y.worker ≠ .stopping)
    (hns : NoStop tr) : ∀ i, SdLab.stopped i ∉ tr := by
  induction tr generalizing y with
  | nil => simp
  | cons l tr ih =>
    simp only [SdSys.run] at h
    obtain ⟨z, h1, h2⟩ := Option.bind_eq_some_iff.1 h
    have key : (∀ i, l ≠ .stopped i) ∧ NoStopQ z.q ∧ z.worker ≠ .stopping := by
      have hsnoc : ∀ m : SdMsg, (∀ j, m ≠ .stop j) → NoStopQ (y.q ++ [m]) := by
        intro m hm j hj
        rcases List.mem_append.1 hj with hj | hj
        · exact hq j hj
        · exact hm j (List.mem_singleton.1 hj).symm
      cases l with
      | emit c => simp only [SdSys.step, Option.some.injEq] at h1; subst h1; exact ⟨by simp, hsnoc _ (by simp), hw⟩
      | tick => simp only [SdSys.step, Option.some.injEq] at h1; subst h1; exact ⟨by simp, hsnoc _ (by simp), hw⟩
      | drain j =>
        simp only [SdSys.step] at h1
        split at h1
        · cases h1
        · simp only [Option.some.injEq] at h1; subst h1; exact ⟨by simp, hsnoc _ (by simp), hw⟩
      | stop j => exact absurd (by simp) (hns j)
      | drained j =>
        simp only [SdSys.step] at h1
        split at h1
        · simp only [Option.some.injEq] at h1; subst h1; exact ⟨by simp, hq, by simp⟩
        · cases h1
      | stopped j =>
        simp only [SdSys.step] at h1
        split at h1
        · next hc => exact absurd hc.1 hw
        · cases h1
      | work =>
        refine ⟨by simp, ?_⟩
        simp only [SdSys.step, SdSys.work] at h1
        split at h1 <;> simp only [Option.some.injEq, reduceCtorEq] at h1 <;> subst h1
        case h_5 j q hw' hq' => exact absurd (by rw [hq']; simp) (hq j)
        case h_6 => exact ⟨hq, by simp⟩
        all_goals next hq' => exact ⟨fun j hj => hq j (by rw [hq']; simp [hj]), by first | exact hw | simp⟩
    intro i hi
    rcases List.mem_cons.1 hi with rfl | hi
    · exact key.1 i rfl
    · exact ih h2 key.2.1 key.2.2 (fun j hj => hns j (by simp [hj])) i hi

theorem no_drained {y y' : SdSys} {tr : List SdLab} (h : y.run tr = some y') (hq : NoDrain y.q)
    (hw : y.worker ≠ .draining ∧ y.worker ≠ .drainDone) (hns : ∀ i, SdLab.drain i ∉ tr) : ∀ i, SdLab.drained i ∉ tr := by
  induction tr generalizing y with
  | nil => simp
  | cons l tr ih =>
    simp only [SdSys.run] at h
    obtain ⟨z, h1, h2⟩ := Option.bind_eq_some_iff.1 h
    have key : (∀ i, l ≠ .drained i) ∧ NoDrain z.q ∧ z.worker ≠ .draining ∧ z.worker ≠ .drainDone := by
      have hsnoc : ∀ m : SdMsg, (∀ j, m ≠ .drain j) → NoDrain (y.q ++ [m]) := by
        intro m hm j hj
        rcases List.mem_append.1 hj with hj | hj
        · exact hq j hj
        · exact hm j (List.mem_singleton.1 hj).symm
      cases l with
      | emit c => simp only [SdSys.step, Option.some.injEq] at h1; subst h1; exact ⟨by simp, hsnoc _ (by simp), hw⟩
      | tick => simp only [SdSys.step, Option.some.injEq] at h1; subst h1; exact ⟨by simp, hsnoc _ (by simp), hw⟩
      | stop j =>
        simp only [SdSys.step] at h1
        split at h1
        · cases h1
        · simp only [Option.some.injEq] at h1; subst h1; exact ⟨by simp, hsnoc _ (by simp), hw⟩
      | drain j => exact absurd (by simp) (hns j)
      | stopped j =>
        simp only [SdSys.step] at h1
        split at h1
        · simp only [Option.some.injEq] at h1; subst h1; exact ⟨by simp, hq, by simp⟩
        · cases h1
      | drained j =>
        simp only [SdSys.step] at h1
        split at h1
        · next hc => exact absurd hc.1 hw.2
        · cases h1
      | work =>
        refine ⟨by simp, ?_⟩
        simp only [SdSys.step, SdSys.work] at h1
        split at h1 <;> simp only [Option.some.injEq, reduceCtorEq] at h1 <;> subst h1
        case h_4 j q hw' hq' => exact absurd (by rw [hq']; simp) (hq j)
        case h_6 hw' _ => exact absurd hw' hw.1
        all_goals next hq' => exact ⟨fun j hj => hq j (by rw [hq']; simp [hj]), by first | exact hw | simp⟩
    intro i hi
    rcases List.mem_cons.1 hi with rfl | hi
    · exact key.1 i rfl
    · exact ih h2 key.2.1 key.2.2 (fun j hj => hns j (by simp [hj])) i hi

/-- C32 is false for `Stop`: a `Stop` that is queued while a `Drain` empties the channel is swallowed.  From then on no execution, with
any number of steps, returns from it (unless somebody calls `Stop` again). -/
theorem C32_stop_during_drain_false (s : StatsD) :
    ∃ tr y, (SdSys.init s).run tr = some y ∧ SdLab.stop 2 ∈ tr ∧ SdLab.stopped 2 ∉ tr ∧
      SdLab.drained 1 ∈ tr ∧ y.worker = .idle ∧ y.q = [] ∧
      ∀ tr' y', y.run tr' = some y' → NoStop tr' → SdLab.stopped 2 ∉ tr' := by
  refine ⟨[.drain 1, .stop 2, .work, .work, .work, .drained 1], _, rfl, by simp, by simp, by simp, rfl, rfl, ?_⟩
  intro tr' y' h hns
  exact no_stopped h (by intro i hi; simp [SdSys.init] at hi) (by simp) hns 2

/-- C32 is false for `Drain`: a second `Drain` queued while the first empties the channel is swallowed. -/
theorem C32_drain_during_drain_false (s : StatsD) :
    ∃ tr y, (SdSys.init s).run tr = some y ∧ SdLab.drain 2 ∈ tr ∧ SdLab.drained 2 ∉ tr ∧
      SdLab.drained 1 ∈ tr ∧ y.worker = .idle ∧ y.q = [] ∧
      ∀ tr' y', y.run tr' = some y' → (∀ i, SdLab.drain i ∉ tr') → SdLab.drained 2 ∉ tr' := by
  refine ⟨[.drain 1, .drain 2, .work, .work, .work, .drained 1], _, rfl, by simp, by simp, by simp, rfl, rfl, ?_⟩
  intro tr' y' h hns
  exact no_drained h (by intro i hi; simp [SdSys.init] at hi) (by simp) hns 2

/-- C32 is false after a `Stop`: once it has returned, no `Drain` and no `Stop` ever returns, and nothing is processed. -/
theorem C32_after_stop_false {y y' : SdSys} {tr : List SdLab} (hw : y.worker = .halted) (h : y.run tr = some y') :
    (∀ i, SdLab.drained i ∉ tr ∧ SdLab.stopped i ∉ tr) ∧ y'.sink = y.sink ∧ y'.worker = .halted := by
  induction tr generalizing y with
  | nil => simp only [SdSys.run, Option.some.injEq] at h; subst h; simp [hw]
  | cons l tr ih =>
    simp only [SdSys.run] at h
    obtain ⟨z, h1, h2⟩ := Option.bind_eq_some_iff.1 h
    have key : (∀ i, l ≠ .drained i ∧ l ≠ .stopped i) ∧ z.sink = y.sink ∧ z.worker = .halted := by
      cases l with
      | emit c => simp only [SdSys.step, Option.some.injEq] at h1; subst h1; simp [hw]
      | tick => simp only [SdSys.step, Option.some.injEq] at h1; subst h1; simp [hw]
      | drain j =>
        simp only [SdSys.step] at h1
        split at h1
        · cases h1
        · simp only [Option.some.injEq] at h1; subst h1; simp [hw]
      | stop j =>
        simp only [SdSys.step] at h1
        split at h1
        · cases h1
        · simp only [Option.some.injEq] at h1; subst h1; simp [hw]
      | drained j => simp [SdSys.step, hw] at h1
      | stopped j => simp [SdSys.step, hw] at h1
      | work => simp [SdSys.step, SdSys.work, hw] at h1
    obtain ⟨i1, i2, i3⟩ := ih key.2.2 h2
    refine ⟨fun i => ⟨?_, ?_⟩, by rw [i2, key.2.1], i3⟩
    · intro hi
      rcases List.mem_cons.1 hi with hi | hi
      · exact (key.1 i).1 hi.symm
      · exact (i1 i).1 hi
    · intro hi
      rcases List.mem_cons.1 hi with hi | hi
      · exact (key.1 i).2 hi.symm
      · exact (i1 i).2 hi

/-- the number of steps of the worker. -/
def works (tr : List SdLab) : Nat := tr.count .work
/-- the number of things queued. -/
def enqs (tr : List SdLab) : Nat := tr.countP (fun | .emit _ => true | .tick => true | .drain _ => true | .stop _ => true | _ => false)

/-- stop `i` is queued behind `n` messages, none of them a drain or stop, or has been received. -/
structure Stopping (i n : Nat) (y : SdSys) : Prop where
  one : y.stoppers = [i]
  st : (y.worker = .idle ∧ ∃ a b, y.q = a ++ .stop i :: b ∧ a.length + 1 = n ∧ NoDrain a ∧ NoStopQ a ∧ NoStopQ b) ∨
       (y.worker = .stopping ∧ n = 0 ∧ NoStopQ y.q)

theorem Stopping.step {i n : Nat} {y y' : SdSys} {l : SdLab} (hs : Stopping i n y) (h : y.step l = some y')
    (hl : l ≠ .stopped i) (hns : ∀ j, l ≠ .stop j) :
    (l ≠ .work → Stopping i n y') ∧ (l = .work → ∃ m, n = m + 1 ∧ Stopping i m y') := by
  have hsnoc : ∀ (m : SdMsg) (ds : List Nat), (∀ j, m ≠ .stop j) → Stopping i n { y with q := y.q ++ [m], drainers := ds } := by
    intro m ds hm
    have hnm : NoStopQ [m] := fun j hj => hm j (List.mem_singleton.1 hj).symm
    refine ⟨hs.one, ?_⟩
    rcases hs.st with ⟨h1, a, b, h2, h3, h4, h5, h6⟩ | ⟨h1, h2, h3⟩
    · refine .inl ⟨h1, a, b ++ [m], by simp [h2], h3, h4, h5, ?_⟩
      intro j hj
      rcases List.mem_append.1 hj with hj | hj
      · exact h6 j hj
      · exact hnm j hj
    · refine .inr ⟨h1, h2, ?_⟩
      intro j hj
      rcases List.mem_append.1 hj with hj | hj
      · exact h3 j hj
      · exact hnm j hj
  cases l with
  | emit c => simp only [SdSys.step, Option.some.injEq] at h; subst h; exact ⟨fun _ => hsnoc _ _ (by simp), by simp⟩
  | tick => simp only [SdSys.step, Option.some.injEq] at h; subst h; exact ⟨fun _ => hsnoc _ _ (by simp), by simp⟩
  | drain j =>
    simp only [SdSys.step] at h
    split at h
    · cases h
    · simp only [Option.some.injEq] at h; subst h; exact ⟨fun _ => hsnoc _ _ (by simp), by simp⟩
  | stop j => exact absurd rfl (hns j)
  | drained j =>
    simp only [SdSys.step] at h
    split at h
    · next hc =>
      rcases hs.st with ⟨h1, _⟩ | ⟨h1, _⟩ <;> rw [h1] at hc <;> simp at hc
    · cases h
  | stopped j =>
    simp only [SdSys.step] at h
    split at h
    · next hc =>
      have : j = i := by simpa [hs.one] using hc.2.1
      subst this; exact absurd rfl hl
    · cases h
  | work =>
    refine ⟨by simp, fun _ => ?_⟩
    rcases hs.st with ⟨h1, a, b, h2, h3, h4, h5, h6⟩ | ⟨h1, h2, h3⟩
    · cases a with
      | nil =>
        simp only [SdSys.step, SdSys.work, h1, h2, List.nil_append, Option.some.injEq] at h
        subst h
        exact ⟨0, by simpa using h3.symm, hs.one, .inr ⟨rfl, rfl, h6⟩⟩
      | cons m a =>
        refine ⟨a.length + 1, by simpa using h3.symm, ?_⟩
        have g4 : NoDrain a := h4.tail
        have g5 : NoStopQ a := fun j hj => h5 j (by simp [hj])
        cases m with
        | emit c =>
          simp only [SdSys.step, SdSys.work, h1, h2, List.cons_append, Option.some.injEq] at h
          subst h
          exact ⟨hs.one, .inl ⟨by simpa using h1, a, b, rfl, rfl, g4, g5, h6⟩⟩
        | flush =>
          simp only [SdSys.step, SdSys.work, h1, h2, List.cons_append, Option.some.injEq] at h
          subst h
          exact ⟨hs.one, .inl ⟨by simpa using h1, a, b, rfl, rfl, g4, g5, h6⟩⟩
        | drain j => exact absurd (by simp) (h4 j)
        | stop j => exact absurd (by simp) (h5 j)
    · simp [SdSys.step, SdSys.work, h1] at h

theorem Stopping.run {i n : Nat} {y y' : SdSys} {tr : List SdLab} (hs : Stopping i n y) (h : y.run tr = some y')
    (hl : SdLab.stopped i ∉ tr) (hns : NoStop tr) : ∃ m, works tr + m = n ∧ Stopping i m y' := by
  induction tr generalizing y n with
  | nil => simp only [SdSys.run, Option.some.injEq] at h; subst h; exact ⟨n, by simp [works], hs⟩
  | cons l tr ih =>
    simp only [SdSys.run] at h
    obtain ⟨z, h1, h2⟩ := Option.bind_eq_some_iff.1 h
    obtain ⟨k1, k2⟩ := hs.step h1 (by rintro rfl; simp at hl) (by rintro j rfl; exact hns j (by simp))
    have hl' : SdLab.stopped i ∉ tr := fun hm => hl (by simp [hm])
    have hns' : NoStop tr := fun j hj => hns j (by simp [hj])
    by_cases hw : l = .work
    · obtain ⟨m, rfl, hm⟩ := k2 hw
      obtain ⟨m', e, hm'⟩ := ih hm h2 hl' hns'
      exact ⟨m', by subst hw; simp [works] at e ⊢; omega, hm'⟩
    · obtain ⟨m', e, hm'⟩ := ih (k1 hw) h2 hl' hns'
      exact ⟨m', by simp [works, List.count_cons, hw] at e ⊢; omega, hm'⟩

/-- without calls of `Stop` the worker keeps running. -/
theorem nostop (o : StatsDOpts) : ∀ (tr : List SdLab) (y : SdSys), (SdSys.init (fresh o)).run tr = some y → NoStop tr →
    NoStopQ y.q ∧ y.stoppers = [] ∧ y.worker ≠ .stopping ∧ y.worker ≠ .halted := by
  intro tr
  induction tr using snocInduction with
  | nil =>
    intro y0 h0 _
    simp only [SdSys.run, Option.some.injEq] at h0; subst h0
    exact ⟨by intro j hj; simp [SdSys.init] at hj, rfl, by simp [SdSys.init], by simp [SdSys.init]⟩
  | snoc tr l ih =>
    intro y0 h0 hns
    obtain ⟨z, h1, h2⟩ := SdSys.run_snoc h0
    obtain ⟨a1, a2, a3, a4⟩ := ih z h1 (fun j hj => hns j (by simp [hj]))
    have hsnoc : ∀ m : SdMsg, (∀ j, m ≠ .stop j) → NoStopQ (z.q ++ [m]) := by
      intro m hm j hj
      rcases List.mem_append.1 hj with hj | hj
      · exact a1 j hj
      · exact hm j (List.mem_singleton.1 hj).symm
    cases l with
    | emit c => simp only [SdSys.step, Option.some.injEq] at h2; subst h2; exact ⟨hsnoc _ (by simp), a2, a3, a4⟩
    | tick => simp only [SdSys.step, Option.some.injEq] at h2; subst h2; exact ⟨hsnoc _ (by simp), a2, a3, a4⟩
    | drain j =>
      simp only [SdSys.step] at h2
      split at h2
      · cases h2
      · simp only [Option.some.injEq] at h2; subst h2; exact ⟨hsnoc _ (by simp), a2, a3, a4⟩
    | stop j => exact absurd (by simp) (hns j)
    | drained j =>
      simp only [SdSys.step] at h2
      split at h2
      · simp only [Option.some.injEq] at h2; subst h2; exact ⟨a1, a2, by simp, by simp⟩
      · cases h2
    | stopped j => simp [SdSys.step, a2] at h2
    | work =>
      simp only [SdSys.step, SdSys.work] at h2
      split at h2 <;> simp only [Option.some.injEq, reduceCtorEq] at h2 <;> subst h2
      case h_5 j q hw' hq' => exact absurd (by rw [hq']; simp) (a1 j)
      case h_6 => exact ⟨a1, a2, by simp, by simp⟩
      all_goals next hq' => exact ⟨fun j hj => a1 j (by rw [hq']; simp [hj]), a2, by first | exact a3 | simp, by first | exact a4 | simp⟩

/-- C32, partial (`Stop`): when no `Drain` is under way and no other `Stop` has been or is called, then after `Stop` is called,
whatever the other goroutines do (emissions, ticks and calls of `Drain` included), the worker is never blocked until it has performed
one step for each message queued before and one more; after exactly that many steps `Stop` can return.
Missing: drains under way and several stops, for which it is false. -/
theorem C32_stop_returns_partial (o : StatsDOpts) (pre mid : List SdLab) (i : Nat) (y0 y : SdSys)
    (h0 : (SdSys.init (fresh o)).run pre = some y0) (h : y0.run (.stop i :: mid) = some y)
    (hsolo : Solo pre) (hdone : drainCalls pre = drainReturns pre) (hns : NoStop pre) (hns' : NoStop mid)
    (hmid : SdLab.stopped i ∉ mid) :
    works mid ≤ y0.q.length + 1 ∧
    (works mid < y0.q.length + 1 → (y.step .work).isSome) ∧
    (works mid = y0.q.length + 1 → (y.step (.stopped i)).isSome) := by
  have hcalm : Calm y0 := by
    rcases solo_inv o pre y0 h0 hsolo with hc | ⟨j, before, ops, _, hb⟩
    · exact hc
    · have hcount := drainers_count o pre y0 h0
      rw [hb.one] at hcount
      simp at hcount
      omega
  have hst := nostop o pre y0 h0 hns
  have hidle : y0.worker = .idle := by
    have h1 := hcalm.w; have h2 := hst.2.2
    cases hw : y0.worker <;> simp_all
  simp only [SdSys.run] at h
  obtain ⟨z, h1, h2⟩ := Option.bind_eq_some_iff.1 h
  have hz : Stopping i (y0.q.length + 1) z := by
    simp only [SdSys.step, hst.2.1, List.not_mem_nil, if_false, Option.some.injEq] at h1
    subst h1
    exact ⟨rfl, .inl ⟨hidle, y0.q, [], rfl, rfl, hcalm.q, hst.1, by intro j hj; simp at hj⟩⟩
  obtain ⟨m, e, hm⟩ := hz.run h2 hmid hns'
  refine ⟨by omega, fun hlt => ?_, fun heq => ?_⟩
  · rcases hm.st with ⟨g1, a, b, g2, _⟩ | ⟨_, g2, _⟩
    · cases a with
      | nil => simp [SdSys.step, SdSys.work, g1, g2]
      | cons m' a => cases m' <;> simp [SdSys.step, SdSys.work, g1, g2]
    · omega
  · rcases hm.st with ⟨g1, a, b, g2, g3, _⟩ | ⟨g1, g2, g3⟩
    · omega
    · have : SdMsg.stop i ∉ y.q.drop cmdChanBuffSize := fun hx => g3 i (List.mem_of_mem_drop hx)
      simp [SdSys.step, g1, hm.one, this]

/-- a case that meets the hypotheses: the drain has returned, two emissions are queued. -/
example : (((SdSys.init (fresh Sample.sdo)).run [.drain 1, .work, .work, .drained 1, .emit (Sample.ev "a"), .tick]).map
    (fun y => (y.q.length, ((y.run [.stop 3, .emit (Sample.ev "b"), .work, .drain 9, .work, .work, .stopped 3]).map (·.worker))))) =
    some (2, some .halted) := by decide +kernel

/-- how many steps the worker can still make before `Drain` returns. -/
def drainFuel (y : SdSys) : Nat :=
  match y.worker with
  | .idle => y.q.length + 1
  | .draining => y.q.length + 1
  | _ => 0

/-- C32, partial (`Drain`): when calls of `Drain` do not overlap and `Stop` is not called, then after `Drain` is called, whatever the
other goroutines do, at every moment until it returns either the worker can make a step or `Drain` can return; and the worker makes at
most as many steps as there were messages queued, plus the number of messages queued since, plus two.
Missing: overlapping drains and stops, for which it is false. -/
theorem C32_drain_returns_partial (o : StatsDOpts) (pre mid : List SdLab) (i : Nat) (y0 y : SdSys)
    (h0 : (SdSys.init (fresh o)).run pre = some y0) (h : y0.run (.drain i :: mid) = some y)
    (hsolo : Solo (pre ++ .drain i :: mid)) (hns : NoStop (pre ++ .drain i :: mid)) (hmid : SdLab.drained i ∉ mid) :
    ((y.step .work).isSome ∨ (y.step (.drained i)).isSome) ∧ works mid ≤ y0.q.length + enqs mid + 2 := by
  have e : pre ++ .drain i :: mid = pre ++ [.drain i] ++ mid := by simp
  have hall : (SdSys.init (fresh o)).run (pre ++ [.drain i] ++ mid) = some y := by
    rw [← e, SdSys.run_append, h0]; exact h
  obtain ⟨n1, n2, n3, n4⟩ := nostop o _ y hall (by rw [← e]; exact hns)
  obtain ⟨ops, _, _, hb⟩ := busy_after_call o pre mid i y hall (by rw [← e]; exact hsolo) hmid
  constructor
  · rcases hb.st with ⟨a, b, h1, h2, h3, h4, h5⟩ | ⟨h1, h2, h3⟩
    · have hidle : y.worker = .idle := by
        clear hns hsolo h hall hb
        cases hw : y.worker <;> simp_all
      left
      cases a with
      | nil => simp [SdSys.step, SdSys.work, hidle, h1]
      | cons m a => cases m <;> simp [SdSys.step, SdSys.work, hidle, h1]
    · rcases h3 with h3 | ⟨h3, _⟩
      · left
        cases hq : y.q with
        | nil => simp [SdSys.step, SdSys.work, hq, h3]
        | cons m q => cases m <;> simp [SdSys.step, SdSys.work, hq, h3]
      · right
        have : SdMsg.drain i ∉ y.q.drop cmdChanBuffSize := fun hx => h1 i (List.mem_of_mem_drop hx)
        simp [SdSys.step, h3, hb.one, this]
  · -- the measure
    have key : ∀ (mid : List SdLab) (y : SdSys), (SdSys.init (fresh o)).run (pre ++ [.drain i] ++ mid) = some y →
        Solo (pre ++ [.drain i] ++ mid) → NoStop (pre ++ [.drain i] ++ mid) → SdLab.drained i ∉ mid →
        works mid + drainFuel y ≤ y0.q.length + enqs mid + 2 := by
      intro mid
      induction mid using snocInduction with
      | nil =>
        intro y hr hso hno _
        rw [List.append_nil] at hr hso hno
        obtain ⟨z, h1, h2⟩ := SdSys.run_snoc hr
        rw [h0] at h1; simp only [Option.some.injEq] at h1; subst h1
        simp only [SdSys.step] at h2
        split at h2
        · cases h2
        · simp only [Option.some.injEq] at h2; subst h2
          simp only [drainFuel, works, enqs, List.length_append, List.length_singleton, List.count_nil, List.countP_nil]
          split <;> omega
      | snoc mid l ih =>
        intro y hr hso hno hm
        have hr' := hr
        have hso' := hso
        rw [← List.append_assoc] at hr hso
        obtain ⟨z, h1, h2⟩ := SdSys.run_snoc hr
        have hno' : NoStop (pre ++ [.drain i] ++ mid) := fun j hj => hno j (by
          rw [← List.append_assoc]; exact List.mem_append_left _ hj)
        have hm' : SdLab.drained i ∉ mid := fun hx => hm (by simp [hx])
        have hsz := hso.prefix (List.prefix_append _ _)
        have := ih z h1 hsz hno' hm'
        obtain ⟨_, _, _, hbz⟩ := busy_after_call o pre mid i z h1 hsz hm'
        have enq : ∀ m : SdMsg, ∀ y' : SdSys, y'.q = z.q ++ [m] → y'.worker = z.worker → drainFuel y' ≤ drainFuel z + 1 := by
          intro m y' hq hw
          unfold drainFuel
          rw [hw, hq]
          cases z.worker <;> simp
        have hw1 : works (mid ++ [l]) = works mid + (if l = .work then 1 else 0) := by
          simp only [works, List.count_append, List.count_singleton]; congr 1; by_cases hl : l = .work <;> simp [hl]
        have he1 : enqs (mid ++ [l]) = enqs mid + enqs [l] := by simp [enqs, List.countP_append]
        rw [hw1, he1]
        cases l with
        | emit c =>
          simp only [SdSys.step, Option.some.injEq] at h2
          have := enq (SdMsg.emit c) y (by rw [← h2]) (by rw [← h2])
          simp [enqs] at this ⊢; simp [enqs] at *; omega
        | tick =>
          simp only [SdSys.step, Option.some.injEq] at h2
          have := enq (SdMsg.flush) y (by rw [← h2]) (by rw [← h2])
          simp [enqs] at this ⊢; simp [enqs] at *; omega
        | drain j =>
          simp only [SdSys.step] at h2
          split at h2
          · cases h2
          · simp only [Option.some.injEq] at h2
            have := enq (SdMsg.drain j) y (by rw [← h2]) (by rw [← h2])
            simp [enqs] at this ⊢; simp [enqs] at *; omega
        | stop j => exact absurd (by simp) (hno j)
        | drained j =>
          simp only [SdSys.step] at h2
          split at h2
          · next hc =>
            have : j = i := by simpa [hbz.one] using hc.2.1
            subst this; exact absurd (by simp) hm
          · cases h2
        | stopped j =>
          obtain ⟨_, g2, _, _⟩ := nostop o _ z h1 hno'
          simp [SdSys.step, g2] at h2
        | work =>
          have : drainFuel y + 1 ≤ drainFuel z := by
            simp only [SdSys.step, SdSys.work] at h2
            split at h2 <;> simp only [Option.some.injEq, reduceCtorEq] at h2 <;> subst h2 <;>
              next hw hq => simp [drainFuel, hw, hq]
          simp [enqs] at *; omega
    have := key mid y hall (by rw [← e]; exact hsolo) (by rw [← e]; exact hns) hmid
    omega
