import Verif.Props.StatsDPeriod
/-!
# Property C31 with overlapping calls of Drain
A `Drain` that returns has sent everything that was processed; and everything emitted before it was called, if the sink has received its message.
-/
open Spec StatsD SdSys

namespace SdStop

variable {o : StatsDOpts} {y y' : SdSys} {tr : List SdLab}

/-- after a drain nothing is pending until its answer is taken. -/
theorem done_empty (h : (SdSys.init (fresh o)).run tr = some y) : y.worker = .drainDone → y.sink.udpBuf = [] := by
  induction tr using snocInduction generalizing y with
  | nil => simp only [SdSys.run, Option.some.injEq] at h; subst h; intro hw; cases hw
  | snoc tr l ih =>
    obtain ⟨z, h1, h2⟩ := SdSys.run_snoc h
    have ih := ih h1
    cases l with
    | emit c => cases h2; exact ih
    | tick => cases h2; exact ih
    | drain i =>
      simp only [SdSys.step] at h2
      split at h2
      · cases h2
      · cases h2; exact ih
    | stop i =>
      simp only [SdSys.step] at h2
      split at h2
      · cases h2
      · cases h2; exact ih
    | drained i =>
      simp only [SdSys.step] at h2
      split at h2
      · cases h2; intro hw; cases hw
      · cases h2
    | stopped i =>
      simp only [SdSys.step] at h2
      split at h2
      · cases h2; intro hw; cases hw
      · cases h2
    | work =>
      simp only [SdSys.step, SdSys.work] at h2
      split at h2 <;> simp only [Option.some.injEq, reduceCtorEq] at h2 <;> subst h2
      case h_6 => intro _; exact flush_buf _
      all_goals
        intro hw
        simp_all

/-- **C31**, in all executions, with any number of overlapping calls of `Drain` and `Stop`: when a `Drain` returns, nothing is pending: the datagrams sent carry exactly the
metrics of the first so many emissions, and the others are still queued. -/
theorem C31_returned {i : Nat} (h : (SdSys.init (fresh o)).run (tr ++ [.drained i]) = some y) :
    y.sink.udpBuf = [] ∧ ∃ done, done ++ qCmds y.q = emissions tr ∧ y.sink.packets.flatten = linesOf o done := by
  obtain ⟨z, h1, h2⟩ := SdSys.run_snoc h
  have hz := done_empty h1
  simp only [SdSys.step] at h2
  split at h2
  · next hc =>
    cases h2
    have he := hz hc.1
    refine ⟨he, ?_⟩
    obtain ⟨done, queued, d1, d2, d3⟩ := C31_first_in_first_out o tr z h1
    refine ⟨done, by rw [← d1, ← d2], ?_⟩
    rw [he, List.append_nil] at d3
    exact d3
  · cases h2

/-- **C31**, with overlapping calls: when a `Drain` returns (with whichever answer) and the sink has received a call's message, that is only messages sent after the call are
still queued, then the datagrams sent carry exactly the metrics of all the emissions made before the call and of some of the later ones, and nothing is pending.
`C31_two_drains_false` is the case that is left: a call that returns with the answer meant for another one, before the sink has received its own message. -/
theorem C31_received {pre mid : List SdLab} {i k : Nat} (h : (SdSys.init (fresh o)).run (pre ++ .drain i :: mid ++ [.drained k]) = some y)
    (hrecv : y.q.length ≤ (messages mid).length) :
    ∃ later, later <+: emissions mid ∧ y.sink.packets.flatten = linesOf o (emissions pre ++ later) ∧ y.sink.udpBuf = [] := by
  obtain ⟨h1, done, h2, h3⟩ := C31_returned h
  obtain ⟨handled, ops, hi⟩ := tick_reachable h
  have hall := hi.all
  rw [show pre ++ SdLab.drain i :: mid ++ [.drained k] = (pre ++ [.drain i]) ++ (mid ++ [.drained k]) by simp, messages_append, messages_append mid,
    show messages [SdLab.drained k] = [] from rfl, List.append_nil] at hall
  -- what is queued is the end of what was sent after the call
  obtain ⟨c, hc⟩ : y.q <:+ messages mid := by
    have e : y.q <:+ messages (pre ++ [.drain i]) ++ messages mid := ⟨handled, hall⟩
    exact List.suffix_of_suffix_length_le e (List.suffix_append _ _) hrecv
  have hq : qCmds (messages mid) = emissions mid := qCmds_messages mid
  have hem : emissions (pre ++ SdLab.drain i :: mid) = emissions pre ++ emissions mid := by
    rw [emissions_append]; rfl
  rw [hem, ← hq, ← hc, qCmds_append, ← List.append_assoc] at h2
  have h4 := List.append_cancel_right h2
  refine ⟨qCmds c, ?_, by rw [h3, h4], h1⟩
  rw [← hq, ← hc, qCmds_append]
  exact List.prefix_append _ _

/-- a case that meets the hypotheses: the second call is received while the first one empties the channel, and takes the answer. -/
example : ((SdSys.init (fresh Sample.sdo)).run ([.drain 1, .emit (Sample.ev "a"), .work] ++ .drain 2 :: [.work, .work, .work, .emit (Sample.ev "b")] ++ [.drained 2])).map
    (fun y => (y.q, y.sink.packets)) = some ([.emit (Sample.ev "b")], [bs "my$app.a:1|c\nmy$app.j.a:1|c\n"]) := by decide +kernel

end SdStop
