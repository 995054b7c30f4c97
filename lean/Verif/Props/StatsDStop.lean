import Verif.Props.StatsDLoop
/-!
# Property C113: what becomes of emissions when a StatsD sink is stopped
-/
open Spec StatsD SdSys

namespace Spec
/-- the messages that the calls in a sequence of steps send to the worker. -/
def messages (tr : List SdLab) : List SdMsg := tr.filterMap (fun
  | .emit c => some (.emit c)
  | .tick => some .flush
  | .drain i => some (.drain i)
  | .stop i => some (.stop i)
  | _ => none)
/-- the call that sent this message has not returned: the message is among those for which the channel (of 8192, statsd_sink.go:11) has no room. -/
def Waits (y : SdSys) (m : SdMsg) : Prop := ∃ k, 8192 ≤ k ∧ y.q[k]? = some m
end Spec

namespace SdStop

/-- the stops: where they stand in the queue, or the one that the worker received, with the emissions made before they were called. -/
structure Inv (o : StatsDOpts) (tr : List SdLab) (y : SdSys) (ops : List StatsD.Op) : Prop where
  sink : y.sink = (fresh o).run ops
  fifo : opCmds ops ++ qCmds y.q = emissions tr
  queued : ∀ a j b, y.q = a ++ .stop j :: b → ∃ pre mid, tr = pre ++ .stop j :: mid ∧ opCmds ops ++ qCmds a = emissions pre
  received : y.worker = .stopping ∨ y.worker = .halted → ∃ pre j mid, tr = pre ++ .stop j :: mid ∧ opCmds ops = emissions pre

theorem snoc_split {α : Type} {l u v : List α} {z w : α} (h : l ++ [z] = u ++ w :: v) : (v = [] ∧ l = u ∧ z = w) ∨ ∃ v', v = v' ++ [z] ∧ l = u ++ w :: v' := by
  rcases List.eq_nil_or_concat v with rfl | ⟨v', x, rfl⟩
  · obtain ⟨h1, h2⟩ := List.append_inj' h rfl
    exact .inl ⟨rfl, h1, by simpa using h2⟩
  · rw [List.concat_eq_append] at h ⊢
    have h' : l ++ [z] = (u ++ w :: v') ++ [x] := by rw [h]; simp
    obtain ⟨h1, h2⟩ := List.append_inj' h' rfl
    exact .inr ⟨v', by rw [show z = x by simpa using h2], h1⟩

variable {o : StatsDOpts} {tr : List SdLab} {y y' : SdSys} {ops : List StatsD.Op}

theorem Inv.later (hi : Inv o tr y ops) (l : SdLab) (he : emissions [l] = []) {w : SdWorker} (hw : w = .stopping ∨ w = .halted → y.worker = .stopping ∨ y.worker = .halted)
    {ds ss : List Nat} : Inv o (tr ++ [l]) { y with worker := w, drainers := ds, stoppers := ss } ops := by
  refine ⟨hi.sink, by rw [emissions_append, he, List.append_nil]; exact hi.fifo, ?_, ?_⟩
  · intro a j b e
    obtain ⟨pre, mid, h1, h2⟩ := hi.queued a j b e
    exact ⟨pre, mid ++ [l], by rw [h1]; simp, h2⟩
  · intro h
    obtain ⟨pre, j, mid, h1, h2⟩ := hi.received (hw h)
    exact ⟨pre, j, mid ++ [l], by rw [h1]; simp, h2⟩

theorem Inv.enqueue (hi : Inv o tr y ops) (l : SdLab) (m : SdMsg) (hm : messages [l] = [m]) {ds ss : List Nat} :
    Inv o (tr ++ [l]) { y with q := y.q ++ [m], drainers := ds, stoppers := ss } ops := by
  have hem : qCmds [m] = emissions [l] := by
    cases l <;> simp [messages] at hm <;> subst hm <;> rfl
  refine ⟨hi.sink, ?_, ?_, ?_⟩
  · show opCmds ops ++ qCmds (y.q ++ [m]) = _
    rw [qCmds_append, emissions_append, ← List.append_assoc, hi.fifo, hem]
  · intro a j b e
    rcases snoc_split e with ⟨rfl, rfl, rfl⟩ | ⟨b', _, e'⟩
    · refine ⟨tr, [], ?_, hi.fifo⟩
      cases l <;> simp [messages] at hm
      rw [hm]
    · obtain ⟨pre, mid, h1, h2⟩ := hi.queued a j b' e'
      exact ⟨pre, mid ++ [l], by rw [h1]; simp, h2⟩
  · intro h
    obtain ⟨pre, j, mid, h1, h2⟩ := hi.received h
    exact ⟨pre, j, mid ++ [l], by rw [h1]; simp, h2⟩

/-- the worker takes the first message. -/
theorem Inv.take (hi : Inv o tr y ops) {m : SdMsg} {q : List SdMsg} (hq : y.q = m :: q) {sink : StatsD} {ops' : List StatsD.Op} (hs : sink = (fresh o).run ops')
    (ho : opCmds ops' = opCmds ops ++ qCmds [m]) {w : SdWorker}
    (hw : w = .stopping ∨ w = .halted → ∃ j, m = .stop j) : Inv o (tr ++ [.work]) { y with q := q, worker := w, sink := sink } ops' := by
  have he : emissions [SdLab.work] = [] := rfl
  have hcons : ∀ a : List SdMsg, qCmds (m :: a) = qCmds [m] ++ qCmds a := fun a => qCmds_append [m] a
  refine ⟨hs, ?_, ?_, ?_⟩
  · show opCmds ops' ++ qCmds q = _
    rw [emissions_append, he, List.append_nil, ← hi.fifo, hq, hcons, ho]; simp
  · intro a j b e
    obtain ⟨pre, mid, h1, h2⟩ := hi.queued (m :: a) j b (by rw [hq]; show m :: q = _; rw [show q = a ++ .stop j :: b from e]; rfl)
    exact ⟨pre, mid ++ [.work], by rw [h1]; simp, by rw [ho, ← h2, hcons a, List.append_assoc]⟩
  · intro h
    obtain ⟨j, rfl⟩ := hw h
    obtain ⟨pre, mid, h1, h2⟩ := hi.queued [] j q hq
    refine ⟨pre, j, mid ++ [.work], by rw [h1]; simp, ?_⟩
    rw [ho, ← h2]; rfl

theorem Inv.step {l : SdLab} (hi : Inv o tr y ops) (h : y.step l = some y') : ∃ ops', Inv o (tr ++ [l]) y' ops' := by
  cases l with
  | emit c => simp only [SdSys.step, Option.some.injEq] at h; subst h; exact ⟨ops, hi.enqueue _ _ rfl⟩
  | tick => simp only [SdSys.step, Option.some.injEq] at h; subst h; exact ⟨ops, hi.enqueue _ _ rfl⟩
  | drain i =>
    simp only [SdSys.step] at h
    split at h
    · cases h
    · simp only [Option.some.injEq] at h; subst h; exact ⟨ops, hi.enqueue _ _ rfl⟩
  | stop i =>
    simp only [SdSys.step] at h
    split at h
    · cases h
    · simp only [Option.some.injEq] at h; subst h; exact ⟨ops, hi.enqueue _ _ rfl⟩
  | drained i =>
    simp only [SdSys.step] at h
    split at h
    · simp only [Option.some.injEq] at h; subst h; exact ⟨ops, hi.later _ rfl (by simp)⟩
    · cases h
  | stopped i =>
    simp only [SdSys.step] at h
    split at h
    · next hc => simp only [Option.some.injEq] at h; subst h; exact ⟨ops, hi.later _ rfl (fun _ => .inl hc.1)⟩
    · cases h
  | work =>
    simp only [SdSys.step, SdSys.work] at h
    split at h <;> simp only [Option.some.injEq, reduceCtorEq] at h <;> subst h
    case h_2 c q hw hq =>
      exact ⟨ops ++ [.cmd c], hi.take hq (by rw [hi.sink, run_snoc_cmd]) (by simp [opCmds, qCmds]) (w := y.worker) (by rw [hw]; simp)⟩
    case h_3 q hw hq =>
      exact ⟨ops ++ [.flush], hi.take hq (by rw [hi.sink, run_snoc_flush]) (by simp [opCmds, qCmds]) (w := y.worker) (by rw [hw]; simp)⟩
    case h_4 j q hw hq =>
      exact ⟨ops, hi.take hq hi.sink (by simp [qCmds]) (by simp)⟩
    case h_5 j q hw hq =>
      exact ⟨ops, hi.take hq hi.sink (by simp [qCmds]) (fun _ => ⟨j, rfl⟩)⟩
    case h_6 hw hq =>
      refine ⟨ops ++ [.flush], by simp [hi.sink, run_snoc_flush], ?_, ?_, by simp⟩
      · have := hi.fifo
        simp [opCmds, emissions] at this ⊢
        exact this
      · intro a j b e
        have : y.q = a ++ .stop j :: b := e
        rw [hq] at this
        simp at this
    case h_7 c q hw hq =>
      exact ⟨ops ++ [.cmd c], hi.take hq (by rw [hi.sink, run_snoc_cmd]) (by simp [opCmds, qCmds]) (w := y.worker) (by rw [hw]; simp)⟩
    case h_8 q hw hq => exact ⟨ops, hi.take hq hi.sink (by simp [qCmds]) (w := y.worker) (by rw [hw]; simp)⟩
    case h_9 j q hw hq => exact ⟨ops, hi.take hq hi.sink (by simp [qCmds]) (w := y.worker) (by rw [hw]; simp)⟩
    case h_10 j q hw hq => exact ⟨ops, hi.take hq hi.sink (by simp [qCmds]) (w := y.worker) (by rw [hw]; simp)⟩

theorem reachable (h : (SdSys.init (fresh o)).run tr = some y) : ∃ ops, Inv o tr y ops := by
  induction tr using snocInduction generalizing y with
  | nil =>
    simp only [SdSys.run, Option.some.injEq] at h; subst h
    refine ⟨[], rfl, rfl, ?_, by simp [SdSys.init]⟩
    intro a j b e
    simp [SdSys.init] at e
  | snoc tr l ih =>
    obtain ⟨z, h1, h2⟩ := SdSys.run_snoc h
    obtain ⟨ops, hi⟩ := ih h1
    exact hi.step h2

/-! ## C113 -/

/-- **C113**, in all executions (also with several calls of `Drain` and `Stop`): once `Stop` has returned, there is a call of `Stop` such that the datagrams sent
and the at most 1440 bytes of the datagram that was being filled are exactly the metrics of the emissions made before that call. Nothing is ever sent after that: the
datagram that was being filled is lost. -/
theorem C113_stopped (h : (SdSys.init (fresh o)).run tr = some y) (hw : y.worker = .halted) :
    (∃ pre j mid, tr = pre ++ .stop j :: mid ∧ y.sink.packets.flatten ++ y.sink.udpBuf = linesOf o (emissions pre) ∧ y.sink.udpBuf.length ≤ 1440) ∧
    ∀ tr' y', y.run tr' = some y' → y'.sink.packets = y.sink.packets := by
  obtain ⟨ops, hi⟩ := reachable h
  obtain ⟨pre, j, mid, h1, h2⟩ := hi.received (.inr hw)
  refine ⟨⟨pre, j, mid, h1, ?_, ?_⟩, ?_⟩
  · have := stream_eq o ops
    rw [← hi.sink, sent_eq, h2] at this
    exact this
  · obtain ⟨_, _, _, _, _, hb⟩ := C28_nothing_lost o ops
    rw [hi.sink]; exact hb
  · intro tr' y' h'
    rw [(C32_after_stop_false hw h').2.1]

/-- nothing to do. -/
theorem quiet_step {l : SdLab} (hq : qCmds y.q = []) (hb : y.sink.udpBuf = []) (he : emissions [l] = []) (h : y.step l = some y') :
    qCmds y'.q = [] ∧ y'.sink = y.sink := by
  have hf : y.sink.flush = y.sink := by unfold StatsD.flush; rw [hb]; rfl
  cases l with
  | emit c => simp [emissions] at he
  | tick => simp only [SdSys.step, Option.some.injEq] at h; subst h; exact ⟨by simp [hq]; rfl, rfl⟩
  | drain i =>
    simp only [SdSys.step] at h
    split at h
    · cases h
    · simp only [Option.some.injEq] at h; subst h; exact ⟨by simp [hq]; rfl, rfl⟩
  | stop i =>
    simp only [SdSys.step] at h
    split at h
    · cases h
    · simp only [Option.some.injEq] at h; subst h; exact ⟨by simp [hq]; rfl, rfl⟩
  | drained i =>
    simp only [SdSys.step] at h
    split at h
    · simp only [Option.some.injEq] at h; subst h; exact ⟨hq, rfl⟩
    · cases h
  | stopped i =>
    simp only [SdSys.step] at h
    split at h
    · simp only [Option.some.injEq] at h; subst h; exact ⟨hq, rfl⟩
    · cases h
  | work =>
    simp only [SdSys.step, SdSys.work] at h
    split at h <;> simp only [Option.some.injEq, reduceCtorEq] at h <;> subst h
    case h_2 c q hw hq' => rw [hq'] at hq; simp [qCmds] at hq
    case h_3 q hw hq' => rw [hq'] at hq; exact ⟨by simpa [qCmds] using hq, hf⟩
    case h_4 j q hw hq' => rw [hq'] at hq; exact ⟨by simpa [qCmds] using hq, rfl⟩
    case h_5 j q hw hq' => rw [hq'] at hq; exact ⟨by simpa [qCmds] using hq, rfl⟩
    case h_6 hw hq' => exact ⟨hq, hf⟩
    case h_7 c q hw hq' => rw [hq'] at hq; simp [qCmds] at hq
    case h_8 q hw hq' => rw [hq'] at hq; exact ⟨by simpa [qCmds] using hq, rfl⟩
    case h_9 j q hw hq' => rw [hq'] at hq; exact ⟨by simpa [qCmds] using hq, rfl⟩
    case h_10 j q hw hq' => rw [hq'] at hq; exact ⟨by simpa [qCmds] using hq, rfl⟩

theorem quiet_run (hq : qCmds y.q = []) (hb : y.sink.udpBuf = []) (he : emissions tr = []) (h : y.run tr = some y') : y'.sink = y.sink := by
  induction tr generalizing y with
  | nil => simp only [SdSys.run, Option.some.injEq] at h; subst h; rfl
  | cons l tr ih =>
    simp only [SdSys.run] at h
    obtain ⟨z, h1, h2⟩ := Option.bind_eq_some_iff.1 h
    rw [show l :: tr = [l] ++ tr from rfl, emissions_append] at he
    obtain ⟨e1, e2⟩ := List.append_eq_nil_iff.1 he
    obtain ⟨k1, k2⟩ := quiet_step hq hb e1 h1
    rw [ih k1 (by rw [k2]; exact hb) e2 h2, k2]

/-- **C113**, partial: if nothing is emitted any more, a `Drain` before the `Stop` saves everything: whatever happens after it has returned (in particular a `Stop`),
the datagrams sent carry the metrics of all the emissions made, and nothing is pending. Missing: stopping without draining (`C113_stop_false`), overlapping calls of
`Drain` (`C31_two_drains_false`). -/
theorem C113_drain_first_partial {pre mid rest : List SdLab} {i : Nat}
    (h : (SdSys.init (fresh o)).run (pre ++ [.drain i] ++ mid ++ [.drained i] ++ rest) = some y)
    (hsolo : Solo (pre ++ [.drain i] ++ mid)) (hmid : SdLab.drained i ∉ mid) (hm : emissions mid = []) (hr : emissions rest = []) :
    y.sink.packets.flatten = linesOf o (emissions pre) ∧ y.sink.udpBuf = [] := by
  rw [SdSys.run_append] at h
  obtain ⟨y0, h0, h3⟩ := Option.bind_eq_some_iff.1 h
  obtain ⟨z, h1, h2⟩ := SdSys.run_snoc h0
  obtain ⟨ops, g1, g2, hb⟩ := busy_after_call o pre mid i z h1 hsolo hmid
  obtain ⟨_, r2, r3, r4⟩ := hb.returns h2
  obtain ⟨later, hl⟩ := r3
  have e : emissions [SdLab.drain i] = [] := rfl
  rw [← hl, emissions_append, emissions_append, e, hm, List.append_nil, List.append_nil, List.append_assoc] at g2
  have g3 : later ++ qCmds z.q = [] := List.append_cancel_left (g2.trans (List.append_nil _).symm)
  obtain ⟨l1, l2⟩ := List.append_eq_nil_iff.1 g3
  have hq : qCmds y0.q = [] := by
    simp only [SdSys.step] at h2
    split at h2
    · simp only [Option.some.injEq] at h2; subst h2; exact l2
    · cases h2
  have hs := quiet_run hq r2 hr h3
  rw [hs]
  refine ⟨?_, r2⟩
  have := stream_eq o ops
  rw [sent_eq, ← hl, l1, List.append_nil, ← g1, ← r4] at this
  rw [← this, stream, r2, List.append_nil]

theorem halted_step {l : SdLab} (hw : y.worker = .halted) (h : y.step l = some y') : y'.worker = .halted ∧ y'.q = y.q ++ messages [l] := by
  cases l with
  | emit c => simp only [SdSys.step, Option.some.injEq] at h; subst h; exact ⟨hw, rfl⟩
  | tick => simp only [SdSys.step, Option.some.injEq] at h; subst h; exact ⟨hw, rfl⟩
  | drain i =>
    simp only [SdSys.step] at h
    split at h
    · cases h
    · simp only [Option.some.injEq] at h; subst h; exact ⟨hw, rfl⟩
  | stop i =>
    simp only [SdSys.step] at h
    split at h
    · cases h
    · simp only [Option.some.injEq] at h; subst h; exact ⟨hw, rfl⟩
  | drained i => simp [SdSys.step, hw] at h
  | stopped i => simp [SdSys.step, hw] at h
  | work => simp [SdSys.step, SdSys.work, hw] at h

theorem messages_append (a b : List SdLab) : messages (a ++ b) = messages a ++ messages b := by simp [messages]

theorem emissions_le (a : List SdLab) : (emissions a).length ≤ (messages a).length := by
  induction a with
  | nil => simp [emissions, messages]
  | cons l a ih =>
    rw [show l :: a = [l] ++ a from rfl, emissions_append, messages_append, List.length_append, List.length_append]
    have : (emissions [l]).length ≤ (messages [l]).length := by cases l <;> simp [emissions, messages]
    omega

theorem halted_run (hw : y.worker = .halted) (h : y.run tr = some y') : y'.q = y.q ++ messages tr := by
  induction tr generalizing y with
  | nil => simp only [SdSys.run, Option.some.injEq] at h; subst h; simp [messages]
  | cons l tr ih =>
    simp only [SdSys.run] at h
    obtain ⟨z, h1, h2⟩ := Option.bind_eq_some_iff.1 h
    obtain ⟨k1, k2⟩ := halted_step hw h1
    rw [ih k1 h2, k2, show l :: tr = [l] ++ tr from rfl, messages_append, List.append_assoc]

/-- **C113**: after `Stop` has returned nobody takes anything out of the channel. In all executions, an emission that is made after 8192 other messages
(emissions, further calls of `Drain` and `Stop`, a tick that was under way) does not return, however long one waits: `EmitEvent` and the other calls block the application for ever. -/
theorem C113_blocks {t1 t2 : List SdLab} {c : SdCmd} (hw : y.worker = .halted) (h : y.run (t1 ++ .emit c :: t2) = some y')
    (hfull : 8192 ≤ (messages t1).length) : Waits y' (.emit c) := by
  refine ⟨y.q.length + (messages t1).length, by omega, ?_⟩
  rw [halted_run hw h, show t1 ++ SdLab.emit c :: t2 = t1 ++ ([.emit c] ++ t2) from rfl, messages_append, messages_append,
    List.getElem?_append_right (by omega), Nat.add_sub_cancel_left, List.getElem?_append_right (Nat.le_refl _), Nat.sub_self]
  rfl

/-- the emissions an execution goes on with can always be made: `C113_blocks` is about executions that exist. -/
theorem halted_goes_on (n : Nat) (c : SdCmd) (y : SdSys) : ∃ y', y.run (List.replicate n (.emit c)) = some y' := by
  induction n generalizing y with
  | zero => exact ⟨y, rfl⟩
  | succ n ih =>
    obtain ⟨y', h⟩ := ih { y with q := y.q ++ [.emit c] }
    exact ⟨y', by rw [List.replicate_succ]; exact h⟩

/-- C113 is false of `Stop` alone: an event is emitted, the worker takes it, `Stop` is called and returns, and no datagram was or will ever be sent. -/
theorem C113_stop_false : ∃ (tr : List SdLab) (y : SdSys), (SdSys.init (fresh Sample.sdo)).run tr = some y ∧ y.worker = .halted ∧
    emissions tr = [Sample.ev "a"] ∧ linesOf Sample.sdo (emissions tr) = bs "my$app.a:1|c\nmy$app.j.a:1|c\n" ∧
    ∀ tr' y', y.run tr' = some y' → y'.sink.packets = [] := by
  have e : ∃ y, (SdSys.init (fresh Sample.sdo)).run [.emit (Sample.ev "a"), .work, .stop 0, .work, .stopped 0] = some y ∧ y.worker = .halted ∧ y.sink.packets = [] :=
    ⟨_, rfl, rfl, by decide +kernel⟩
  obtain ⟨y, h1, h2, h3⟩ := e
  exact ⟨_, y, h1, h2, rfl, by decide +kernel, fun tr' y' h => ((C113_stopped h1 h2).2 tr' y' h).trans h3⟩

/-- a case that meets the hypotheses of `C113_stopped`: the sink is stopped with one datagram sent and another begun; an emission comes too late. -/
example : (((SdSys.init (fresh Sample.sdo)).run [.emit (Sample.ev "a"), .tick, .emit (Sample.ev "b"), .stop 3, .emit (Sample.ev "c"), .work, .work, .work, .work, .stopped 3]).map
    (fun y => (y.worker, y.sink.packets, y.sink.udpBuf))) = some (.halted, [bs "my$app.a:1|c\nmy$app.j.a:1|c\n"], bs "my$app.b:1|c\nmy$app.j.b:1|c\n") := by decide +kernel

/-- a case that meets the hypotheses of `C113_drain_first_partial`. -/
example : ∃ y, (SdSys.init (fresh Sample.sdo)).run ([.emit (Sample.ev "a"), .emit (Sample.ev "b")] ++ [.drain 1] ++ [.work, .work, .tick, .work, .work, .work] ++ [.drained 1] ++ [.stop 2, .work, .stopped 2]) = some y ∧
    Solo ([.emit (Sample.ev "a"), .emit (Sample.ev "b")] ++ [.drain 1] ++ [.work, .work, .tick, .work, .work, .work]) ∧
    y.worker = .halted ∧ y.sink.packets = [bs "my$app.a:1|c\nmy$app.j.a:1|c\nmy$app.b:1|c\nmy$app.j.b:1|c\n"] := by
  refine ⟨_, rfl, ?_, rfl, by decide +kernel⟩
  intro pre i hp
  have hpre := (List.prefix_append _ _).trans hp
  have e1 := List.prefix_iff_eq_take.1 hpre
  have e2 := List.prefix_iff_eq_take.1 hp
  have hlen := hp.length_le
  simp only [List.length_append, List.length_cons, List.length_nil] at hlen
  have key : ∀ n < 9, ([.emit (Sample.ev "a"), .emit (Sample.ev "b")] ++ [.drain 1] ++ [.work, .work, .tick, .work, .work, .work] : List SdLab).take n ++ [.drain i] =
      ([.emit (Sample.ev "a"), .emit (Sample.ev "b")] ++ [.drain 1] ++ [.work, .work, .tick, .work, .work, .work] : List SdLab).take (n + 1) →
      drainCalls (([.emit (Sample.ev "a"), .emit (Sample.ev "b")] ++ [.drain 1] ++ [.work, .work, .tick, .work, .work, .work] : List SdLab).take n) =
      drainReturns (([.emit (Sample.ev "a"), .emit (Sample.ev "b")] ++ [.drain 1] ++ [.work, .work, .tick, .work, .work, .work] : List SdLab).take n) := by
    intro n hn
    interval_cases n <;> simp [drainCalls, drainReturns]
  have := key pre.length (by omega) (by rw [← e1]; rw [e2]; simp)
  rw [← e1] at this; exact this

/-- a case that meets the hypotheses of `C113_blocks`: 8192 emissions after the stop above, and one more. -/
example : ∃ y y' : SdSys, (SdSys.init (fresh Sample.sdo)).run [.stop 0, .work, .stopped 0] = some y ∧ y.worker = .halted ∧
    y.run (List.replicate 8192 (.emit (Sample.ev "a")) ++ .emit (Sample.ev "b") :: []) = some y' ∧
    8192 ≤ (messages (List.replicate 8192 (.emit (Sample.ev "a")))).length := by
  obtain ⟨z, hz⟩ := halted_goes_on 8192 (Sample.ev "a") { SdSys.init (fresh Sample.sdo) with worker := .halted }
  refine ⟨{ SdSys.init (fresh Sample.sdo) with worker := .halted }, { z with q := z.q ++ [.emit (Sample.ev "b")] }, rfl, rfl, ?_, ?_⟩
  · rw [SdSys.run_append, hz]; rfl
  · have : ∀ n, (messages (List.replicate n (.emit (Sample.ev "a")))).length = n := by
      intro n
      induction n with
      | zero => rfl
      | succ n ih => rw [List.replicate_succ, show ∀ (x : SdLab) l, x :: l = [x] ++ l from fun _ _ => rfl, messages_append, List.length_append, ih]; simp [messages]; omega
    rw [this]

end SdStop
