import Verif.Props.StatsDStop
/-!
# Property C114: the ticker of a StatsD sink
-/
open Spec StatsD SdSys

namespace StatsD

theorem writeMetric_packets (s : StatsD) (b : Str) : s.packets <+: (s.writeMetric b).packets := by
  unfold writeMetric
  dsimp only
  split
  · exact List.prefix_refl _
  · split
    · exact List.prefix_refl _
    · split
      · exact List.prefix_append _ _
      · exact List.prefix_refl _

theorem getPrefixBuffer_packets (s : StatsD) (k : EventKey) : (s.getPrefixBuffer k).1.packets = s.packets := by
  unfold getPrefixBuffer
  split <;> rfl

theorem emitLine_packets (s : StatsD) (k : EventKey) (r : Str) : s.packets <+: (s.emitLine k r).packets := by
  unfold emitLine
  refine List.IsPrefix.trans ?_ (writeMetric_packets _ _)
  show s.packets <+: (s.getPrefixBuffer k).1.packets
  rw [getPrefixBuffer_packets]
  exact List.prefix_refl _

theorem emitBoth_packets (s : StatsD) (j e u r : Str) : s.packets <+: (s.emitBoth j e u r).packets := by
  unfold emitBoth
  dsimp only
  by_cases h : s.opts.skipTop = true
  · rw [if_pos h]
    split
    · exact List.prefix_refl _
    · exact emitLine_packets _ _ _
  · rw [if_neg h]
    split
    · exact emitLine_packets _ _ _
    · exact (emitLine_packets _ _ _).trans (emitLine_packets _ _ _)

/-- what was sent stays sent. -/
theorem processCmd_packets (s : StatsD) (c : SdCmd) : s.packets <+: (s.processCmd c).packets := by
  cases c with
  | complete => exact emitLine_packets _ _ _
  | _ => exact emitBoth_packets _ _ _ _ _

theorem flush_packets (s : StatsD) : s.packets <+: s.flush.packets := by
  unfold StatsD.flush
  split
  · exact List.prefix_append _ _
  · exact List.prefix_refl _

theorem flatten_prefix {a b : List Str} (h : a <+: b) : a.flatten <+: b.flatten := by
  obtain ⟨c, rfl⟩ := h
  exact ⟨c.flatten, by simp⟩

end StatsD

namespace SdStop

theorem linesOf_append (o : StatsDOpts) (a b : List SdCmd) : linesOf o (a ++ b) = linesOf o a ++ linesOf o b := by simp [linesOf]

variable {o : StatsDOpts} {tr : List SdLab} {y y' : SdSys} {ops : List StatsD.Op} {handled : List SdMsg}

/-- the messages the worker has received, and the flushes among them. -/
structure Tick (o : StatsDOpts) (tr : List SdLab) (y : SdSys) (handled : List SdMsg) (ops : List StatsD.Op) : Prop where
  sink : y.sink = (fresh o).run ops
  all : handled ++ y.q = messages tr
  cmds : opCmds ops = qCmds handled
  sent : y.worker ≠ .draining → ∀ a b, handled = a ++ .flush :: b → linesOf o (qCmds a) <+: y.sink.packets.flatten

theorem flushed (o : StatsDOpts) (ops : List StatsD.Op) : ((fresh o).run ops).flush.packets.flatten = linesOf o (opCmds ops) := by
  have := C28_after_flush o ops
  rw [sent_eq, ← run_snoc_flush] at this
  exact this.2

theorem Tick.quiet (hi : Tick o tr y handled ops) (l : SdLab) (hm : messages [l] = []) {w : SdWorker} (hw : w ≠ .draining → y.worker ≠ .draining) {ds ss : List Nat} :
    Tick o (tr ++ [l]) { y with worker := w, drainers := ds, stoppers := ss } handled ops :=
  ⟨hi.sink, by rw [messages_append, hm, List.append_nil]; exact hi.all, hi.cmds, fun h => hi.sent (hw h)⟩

theorem Tick.enqueue (hi : Tick o tr y handled ops) (l : SdLab) (m : SdMsg) (hm : messages [l] = [m]) {ds ss : List Nat} :
    Tick o (tr ++ [l]) { y with q := y.q ++ [m], drainers := ds, stoppers := ss } handled ops :=
  ⟨hi.sink, by rw [messages_append, hm, ← hi.all, List.append_assoc], hi.cmds, hi.sent⟩

theorem Tick.take (hi : Tick o tr y handled ops) {m : SdMsg} {q : List SdMsg} (hq : y.q = m :: q) {sink : StatsD} {ops' : List StatsD.Op} (hs : sink = (fresh o).run ops')
    (ho : opCmds ops' = opCmds ops ++ qCmds [m]) (hp : y.sink.packets <+: sink.packets) {w : SdWorker} (hw : w ≠ .draining → y.worker ≠ .draining)
    (hf : w ≠ .draining → m = .flush → sink = y.sink.flush) :
    Tick o (tr ++ [.work]) { y with q := q, worker := w, sink := sink } (handled ++ [m]) ops' := by
  refine ⟨hs, ?_, by rw [ho, hi.cmds, qCmds_append], ?_⟩
  · rw [messages_append, ← hi.all, hq]; simp [messages]
  · intro hw' a b e
    rcases snoc_split e with ⟨rfl, rfl, rfl⟩ | ⟨b', _, e'⟩
    · show _ <+: sink.packets.flatten
      rw [hf hw' rfl, hi.sink, flushed, hi.cmds]
      exact List.prefix_refl _
    · exact (hi.sent (hw hw') a b' e').trans (flatten_prefix hp)

theorem Tick.step {l : SdLab} (hi : Tick o tr y handled ops) (h : y.step l = some y') : ∃ handled' ops', Tick o (tr ++ [l]) y' handled' ops' := by
  cases l with
  | emit c => simp only [SdSys.step, Option.some.injEq] at h; subst h; exact ⟨_, _, hi.enqueue _ _ rfl⟩
  | tick => simp only [SdSys.step, Option.some.injEq] at h; subst h; exact ⟨_, _, hi.enqueue _ _ rfl⟩
  | drain i =>
    simp only [SdSys.step] at h
    split at h
    · cases h
    · simp only [Option.some.injEq] at h; subst h; exact ⟨_, _, hi.enqueue _ _ rfl⟩
  | stop i =>
    simp only [SdSys.step] at h
    split at h
    · cases h
    · simp only [Option.some.injEq] at h; subst h; exact ⟨_, _, hi.enqueue _ _ rfl⟩
  | drained i =>
    simp only [SdSys.step] at h
    split at h
    · next hc => simp only [Option.some.injEq] at h; subst h; exact ⟨_, _, hi.quiet _ rfl (fun _ => by rw [hc.1]; simp)⟩
    · cases h
  | stopped i =>
    simp only [SdSys.step] at h
    split at h
    · next hc => simp only [Option.some.injEq] at h; subst h; exact ⟨_, _, hi.quiet _ rfl (fun _ => by rw [hc.1]; simp)⟩
    · cases h
  | work =>
    simp only [SdSys.step, SdSys.work] at h
    split at h <;> simp only [Option.some.injEq, reduceCtorEq] at h <;> subst h
    case h_2 c q hw hq =>
      exact ⟨_, ops ++ [.cmd c], hi.take hq (by rw [hi.sink, run_snoc_cmd]) (by simp [opCmds, qCmds]) (processCmd_packets _ _) (w := y.worker) id (by simp)⟩
    case h_3 q hw hq =>
      exact ⟨_, ops ++ [.flush], hi.take hq (by rw [hi.sink, run_snoc_flush]) (by simp [opCmds, qCmds]) (flush_packets _) (w := y.worker) id (fun _ _ => rfl)⟩
    case h_4 j q hw hq =>
      exact ⟨_, ops, hi.take hq hi.sink (by simp [qCmds]) (List.prefix_refl _) (fun _ => by rw [hw]; simp) (by simp)⟩
    case h_5 j q hw hq =>
      exact ⟨_, ops, hi.take hq hi.sink (by simp [qCmds]) (List.prefix_refl _) (fun _ => by rw [hw]; simp) (by simp)⟩
    case h_6 hw hq =>
      refine ⟨handled, ops ++ [.flush], by simp [hi.sink, run_snoc_flush], ?_, ?_, ?_⟩
      · rw [messages_append, ← hi.all]; simp [messages]
      · rw [← hi.cmds]; simp [opCmds]
      · intro _ a b e
        show _ <+: y.sink.flush.packets.flatten
        rw [hi.sink, flushed, hi.cmds, e, qCmds_append, linesOf_append]
        exact List.prefix_append _ _
    case h_7 c q hw hq =>
      exact ⟨_, ops ++ [.cmd c], hi.take hq (by rw [hi.sink, run_snoc_cmd]) (by simp [opCmds, qCmds]) (processCmd_packets _ _) (w := y.worker) id (by simp)⟩
    case h_8 q hw hq => exact ⟨_, ops, hi.take hq hi.sink (by simp [qCmds]) (List.prefix_refl _) (w := y.worker) id (fun g => absurd hw g)⟩
    case h_9 j q hw hq => exact ⟨_, ops, hi.take hq hi.sink (by simp [qCmds]) (List.prefix_refl _) (w := y.worker) id (by simp)⟩
    case h_10 j q hw hq => exact ⟨_, ops, hi.take hq hi.sink (by simp [qCmds]) (List.prefix_refl _) (w := y.worker) id (by simp)⟩

theorem tick_reachable (h : (SdSys.init (fresh o)).run tr = some y) : ∃ handled ops, Tick o tr y handled ops := by
  induction tr using snocInduction generalizing y with
  | nil =>
    simp only [SdSys.run, Option.some.injEq] at h; subst h
    exact ⟨[], [], rfl, rfl, rfl, by simp⟩
  | snoc tr l ih =>
    obtain ⟨z, h1, h2⟩ := SdSys.run_snoc h
    obtain ⟨handled, ops, hi⟩ := ih h1
    exact hi.step h2

theorem qCmds_messages (tr : List SdLab) : qCmds (messages tr) = emissions tr := by
  induction tr with
  | nil => rfl
  | cons l tr ih =>
    rw [show l :: tr = [l] ++ tr from rfl, messages_append, qCmds_append, emissions_append, ih]
    cases l <;> rfl

/-- **C114**, in all executions: when the worker has received the flush of a tick (only messages sent after the tick are still queued) and is not inside a `Drain`,
then the metrics of all the emissions made before the tick have been sent, before those of any later one. -/
theorem C114_tick {pre mid : List SdLab} (h : (SdSys.init (fresh o)).run (pre ++ .tick :: mid) = some y)
    (hrecv : y.q.length ≤ (messages mid).length) (hd : y.worker ≠ .draining) : linesOf o (emissions pre) <+: y.sink.packets.flatten := by
  obtain ⟨handled, ops, hi⟩ := tick_reachable h
  have hall := hi.all
  rw [show pre ++ SdLab.tick :: mid = pre ++ ([.tick] ++ mid) from rfl, messages_append, messages_append] at hall
  have e : handled = messages pre ++ .flush :: (messages mid).take ((messages mid).length - y.q.length) := by
    have hl := congrArg List.length hall
    simp only [List.length_append, show (messages [SdLab.tick]).length = 1 from rfl] at hl
    have h2 := congrArg (List.take handled.length) hall
    rw [List.take_left, ← List.append_assoc, List.take_append, List.take_of_length_le (by simp [show (messages [SdLab.tick]).length = 1 from rfl]; omega)] at h2
    rw [h2, List.append_assoc]
    show messages pre ++ (SdMsg.flush :: List.take _ _) = _
    congr 3
    simp only [List.length_append, show (messages [SdLab.tick]).length = 1 from rfl]
    omega
  have := hi.sent hd _ _ e
  rwa [qCmds_messages] at this

/-- the condition on drains is needed: inside a `Drain` the flush of a tick is received and ignored. -/
theorem C114_draining : ((SdSys.init (fresh Sample.sdo)).run ([.emit (Sample.ev "a"), .drain 1] ++ .tick :: [.emit (Sample.ev "b"), .work, .work, .work])).map
    (fun y => (y.worker, y.q, y.sink.packets)) = some (.draining, [.emit (Sample.ev "b")], []) := by decide +kernel

/-- a case that meets the hypotheses of `C114_tick`: two events before the tick, one after it that is still in the buffer, and one that is still queued. -/
example : ((SdSys.init (fresh Sample.sdo)).run ([.emit (Sample.ev "a"), .work, .emit (Sample.ev "b")] ++ .tick :: [.emit (Sample.ev "c"), .work, .work, .work, .emit (Sample.ev "d")])).map
    (fun y => (y.worker, y.q.length, y.sink.packets)) = some (.idle, 1, [bs "my$app.a:1|c\nmy$app.j.a:1|c\nmy$app.b:1|c\nmy$app.j.b:1|c\n"]) := by decide +kernel

end SdStop
