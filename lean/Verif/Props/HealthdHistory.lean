import Verif.Lemmas.HealthdHistory
import Verif.Props.Healthd
/-!
# What healthd shows for past intervals (C87)
healthd shows an interval for two hours (`retain`), but it keeps the reports it was computed from for five intervals only (`purge`, healthd.go:216-236).
A process that offers older intervals has them polled again; healthd takes them for news and computes the interval anew from what has come in since.
-/
open Spec Healthd Unmarshal

namespace Healthd
/-- a successful poll consumed at `clock` seconds: process `inst` of `host` reports event "e" `n` times for the interval starting at `start` seconds. -/
def reportsAt (clock : Int) (host inst : String) (start serial n : Int) : Cmd :=
  .response ⟨bs host, ⟨clock * 1000000000, 1⟩, none, 200, 5, ⟨bs inst, 60000000000, [some ⟨sentAgg start 0 serial n, false⟩]⟩⟩
    ⟨clock * 1000000000, 1⟩ ⟨clock * 1000000000, 1⟩

/-- two processes report the interval that starts at 0; it is recalculated and, six minutes later, its data are thrown away. -/
def told : List Cmd := [reportsAt 65 "h" "a" 0 1 3, reportsAt 66 "i" "b" 0 1 4, .recalculate, .purge (fun _ => ⟨360000000000, 1⟩)]

/-- the first process is polled again and still offers the interval. -/
def toldAgain : List Cmd := told ++ [reportsAt 365 "h" "a" 0 1 3, .recalculate]

/-- the first process is polled again and offers a new interval only. -/
def toldNew : List Cmd := told ++ [reportsAt 365 "h" "a" 300 1 3, .recalculate]

theorem told_events : events 60000000000 (told.map Cmd.plain) =
    [.report ⟨⟨0, 0⟩, bs "a", bs "h"⟩ (sentAgg 0 0 1 3), .report ⟨⟨0, 0⟩, bs "b", bs "i"⟩ (sentAgg 0 0 1 4), .recalculate, .purge (fun _ => ⟨360000000000, 1⟩)] := rfl

theorem toldAgain_events : events 60000000000 (toldAgain.map Cmd.plain) =
    [.report ⟨⟨0, 0⟩, bs "a", bs "h"⟩ (sentAgg 0 0 1 3), .report ⟨⟨0, 0⟩, bs "b", bs "i"⟩ (sentAgg 0 0 1 4), .recalculate, .purge (fun _ => ⟨360000000000, 1⟩),
      .report ⟨⟨0, 0⟩, bs "a", bs "h"⟩ (sentAgg 0 0 1 3), .recalculate] := rfl

theorem toldNew_events : events 60000000000 (toldNew.map Cmd.plain) =
    [.report ⟨⟨0, 0⟩, bs "a", bs "h"⟩ (sentAgg 0 0 1 3), .report ⟨⟨0, 0⟩, bs "b", bs "i"⟩ (sentAgg 0 0 1 4), .recalculate, .purge (fun _ => ⟨360000000000, 1⟩),
      .report ⟨⟨300000000000, 0⟩, bs "a", bs "h"⟩ (sentAgg 300 0 1 3), .recalculate] := rfl

theorem told_decoded {cmds : List Cmd} (h : cmds = toldAgain ∨ cmds = toldNew) : Decoded (cmds.map Cmd.plain) := by
  intro r n1 n2 hm hs rep hrep
  have : Unmarshal.AggFits rep.agg := by
    rcases h with rfl | rfl <;>
    simp only [told, toldAgain, toldNew, reportsAt, List.cons_append, List.nil_append, List.map_cons, List.map_nil, Cmd.plain, List.mem_cons, Op.response.injEq,
      reduceCtorEq, List.not_mem_nil, or_false, false_or] at hm <;>
    rcases hm with ⟨rfl, _, _⟩ | ⟨rfl, _, _⟩ | ⟨rfl, _, _⟩ <;>
      simp only [List.mem_singleton, Option.some.injEq, List.not_mem_nil] at hrep <;> rw [hrep] <;>
      exact sentAgg_fits _ _ (by unfold InI64; norm_num) (by unfold InI64; norm_num)
  exact ⟨this.wf, this.range⟩

theorem toldAgain_honest : Honest (events 60000000000 (toldAgain.map Cmd.plain)) := by
  rw [toldAgain_events]
  intro k a b h1 h2 he
  simp only [List.mem_cons, Ev.report.injEq, reduceCtorEq, List.not_mem_nil, or_false, false_or] at h1 h2
  have : a = b := by
    rcases h1 with ⟨rfl, rfl⟩ | ⟨rfl, rfl⟩ | ⟨rfl, rfl⟩ <;>
    rcases h2 with ⟨h, rfl⟩ | ⟨h, rfl⟩ | ⟨h, rfl⟩ <;> first | rfl | (exfalso; revert h he; decide)
  rw [this]
  exact ⟨fun _ => rfl, fun _ => rfl, fun _ => rfl⟩

theorem toldNew_honest : Honest (events 60000000000 (toldNew.map Cmd.plain)) := by
  rw [toldNew_events]
  intro k a b h1 h2 he
  simp only [List.mem_cons, Ev.report.injEq, reduceCtorEq, List.not_mem_nil, or_false, false_or] at h1 h2
  have : a = b := by
    rcases h1 with ⟨rfl, rfl⟩ | ⟨rfl, rfl⟩ | ⟨rfl, rfl⟩ <;>
    rcases h2 with ⟨h, rfl⟩ | ⟨h, rfl⟩ | ⟨h, rfl⟩ <;> first | rfl | (exfalso; revert h he; decide)
  rw [this]
  exact ⟨fun _ => rfl, fun _ => rfl, fun _ => rfl⟩
end Healthd

/-- C87: an interval that healthd shows, and about which no news wait, shows the totals over all processes that ever reported it — also long after healthd threw
the reports away — provided that the interval had been recalculated by then and nobody reported it again afterwards.
Missing: the proviso; `C87_false` shows that it is needed. -/
theorem C87_partial {sort : List IntAgg → List IntAgg} (hsort : SortsByStart sort) {hosts : List Str} {h : List Op} {s : State} (hr : Runs sort (init hosts) h s)
    (hdec : Decoded h) (hhon : Honest (events (agreed h) h)) (hrange : -2 ^ 63 ≤ 5 * agreed h ∧ 5 * agreed h < 2 ^ 63)
    {a : IntAgg} (ha : a ∈ s.intervalAggregations) (hp : ¬ Pending (agreed h) (events (agreed h) h) a.start)
    (hset : Settled (agreed h) (events (agreed h) h) a.start) : AllTotals (events (agreed h) h) a.start a :=
  hr.history hsort hdec (agreed h) (fun h0 => by
    rcases hr.phase with p | p
    · exact absurd p.1 h0
    · exact p.2.2.2) hrange hhon a ha hp hset

/-- C87: so it is if the processes report only intervals that started at most five intervals ago, the clock does not go back and the recalculations keep up.
Missing: processes that keep more intervals. -/
theorem C87_recent_partial {sort : List IntAgg → List IntAgg} (hsort : SortsByStart sort) {hosts : List Str} {h : List Op} {s : State}
    (hr : Runs sort (init hosts) h s) (hdec : Decoded h) (hhon : Honest (events (agreed h) h)) (hrange : -2 ^ 63 ≤ 5 * agreed h ∧ 5 * agreed h < 2 ^ 63)
    {a : IntAgg} (ha : a ∈ s.intervalAggregations) (hp : ¬ Pending (agreed h) (events (agreed h) h) a.start)
    (hclock : ClockForward h) (hrec : RecentOnly (agreed h) h) (hin : RecalculatedInTime (agreed h) (events (agreed h) h) a.start) :
    AllTotals (events (agreed h) h) a.start a :=
  C87_partial hsort hr hdec hhon hrange ha hp (settled_of_recent hclock hrec hin)

/-- a case that meets the hypotheses: after `toldNew` healthd shows 7 for the interval whose data it has thrown away. -/
example : ∃ h s, Runs sortAggs (init [bs "h", bs "i"]) h s ∧ Decoded h ∧ Honest (events (agreed h) h) ∧ agreed h = 60000000000 ∧ ClockForward h ∧
    RecentOnly (agreed h) h ∧ ∃ a ∈ s.intervalAggregations, a.start = ⟨0, 0⟩ ∧ value a (.event (bs "e")) = some 7 ∧
      ¬ Pending (agreed h) (events (agreed h) h) a.start ∧ RecalculatedInTime (agreed h) (events (agreed h) h) a.start ∧
      ¬ NeverStale (agreed h) (events (agreed h) h) a.start := by
  have key : (after (init [bs "h", bs "i"]) toldNew).map (fun s => s.intervalAggregations.map (fun a => (a.start, value a (.event (bs "e"))))) =
      some [(⟨0, 0⟩, some 7), (⟨300000000000, 0⟩, some 3)] := by decide +kernel
  obtain ⟨s, hs, h1⟩ := Option.map_eq_some_iff.1 key
  have hag : agreed (ops (init [bs "h", bs "i"]) toldNew) = 60000000000 := by rw [agreed_ops hs]; decide +kernel
  obtain ⟨a, ha, h2⟩ := List.mem_map.1 (show ((⟨0, 0⟩ : Time), some (7 : Int)) ∈ _ by rw [h1]; simp)
  have h3 : a.start = ⟨0, 0⟩ := (Prod.ext_iff.1 h2).1
  refine ⟨_, s, after_runs hs, fun r n1 n2 hm => told_decoded (.inr rfl) r n1 n2 (response_mem_ops hm),
    by rw [hag, events_ops hs]; exact toldNew_honest, hag, ?_, ?_, a, ha, h3, (Prod.ext_iff.1 h2).2, ?_, ?_, ?_⟩
  · intro h1' now h2' he r n1 n2 hm k
    have hsplit : ∃ c1 c2 : List Cmd, toldNew = c1 ++ .purge now :: c2 ∧ ∃ s', Op.response r n1 n2 ∈ ops s' c2 := by
      clear hag h1 ha key
      revert hs he
      generalize toldNew = cs
      generalize init [bs "h", bs "i"] = s0
      intro hs he
      induction cs generalizing s0 h1' with
      | nil => simp [ops] at he
      | cons c t ih =>
        obtain ⟨s1, g1, g2, g3⟩ : ∃ s1, step sortAggs s0 (c.op s0) = some s1 ∧ after s1 t = some s ∧ ops s0 (c :: t) = c.op s0 :: ops s1 t := by
          unfold after at hs
          rw [List.foldlM_cons] at hs
          obtain ⟨s1, g1, g2⟩ := Option.bind_eq_some_iff.1 hs
          exact ⟨s1, g1, g2, by rw [ops, g1]; rfl⟩
        rw [g3] at he
        cases h1' with
        | nil =>
          simp only [List.nil_append, List.cons.injEq] at he
          cases c with
          | purge now' =>
            have : now' = now := by simpa [Cmd.op] using he.1
            exact ⟨[], t, by simp [this], s1, by rw [he.2]; exact hm⟩
          | response _ _ _ => simp [Cmd.op] at he
          | recalculate => simp [Cmd.op] at he
        | cons x y =>
          simp only [List.cons_append, List.cons.injEq] at he
          obtain ⟨c1, c2, e1, e2⟩ := ih y s1 g2 he.2
          exact ⟨c :: c1, c2, by simp [e1], e2⟩
    obtain ⟨c1, c2, e1, s', e2⟩ := hsplit
    have e3 := response_mem_ops e2
    rcases c1 with _ | ⟨_, _ | ⟨_, _ | ⟨_, _ | ⟨_, _ | ⟨_, _ | ⟨_, c1⟩⟩⟩⟩⟩⟩ <;>
      simp only [toldNew, told, reportsAt, List.cons_append, List.nil_append, List.cons.injEq, reduceCtorEq, false_and, and_false, Cmd.purge.injEq] at e1
    · obtain ⟨_, _, _, e4, e5⟩ := e1
      rw [← e5] at e3
      simp only [List.map_cons, List.map_nil, Cmd.plain, List.mem_cons, Op.response.injEq, reduceCtorEq, List.not_mem_nil, or_false] at e3
      rw [← e4, e3.2.1]
      show (360000000000 : Int) ≤ 365 * 1000000000
      decide
    · simp at e1
  · rw [hag]
    intro r n1 n2 hm hsu rep hrep
    have hm := response_mem_ops hm
    simp only [told, toldNew, reportsAt, List.cons_append, List.nil_append, List.map_cons, List.map_nil, Cmd.plain, List.mem_cons, Op.response.injEq,
      reduceCtorEq, List.not_mem_nil, or_false, false_or] at hm
    rcases hm with ⟨rfl, rfl, _⟩ | ⟨rfl, rfl, _⟩ | ⟨rfl, rfl, _⟩ <;>
      simp only [List.mem_singleton, Option.some.injEq] at hrep <;> rw [hrep] <;> decide
  · rw [hag, events_ops hs, toldNew_events]
    exact pending_recalculate _ [_, _, _, _, _] _
  · rw [hag, events_ops hs, toldNew_events]
    intro es1 now es2 he hst
    rcases es1 with _ | ⟨_, _ | ⟨_, _ | ⟨_, _ | ⟨_, _ | ⟨_, _ | ⟨_, es1⟩⟩⟩⟩⟩⟩ <;>
      simp only [List.cons_append, List.nil_append, List.cons.injEq, reduceCtorEq, false_and, and_false, Ev.purge.injEq] at he
    · obtain ⟨rfl, rfl, rfl, _⟩ := he
      exact pending_recalculate _ [_, _] _
    · simp at he
  · rw [hag, events_ops hs, toldNew_events, h3]
    intro hn
    exact hn (fun _ => ⟨360000000000, 1⟩) (by simp) ⟨⟨0, 0⟩, [], []⟩ rfl (by decide)

/-- C87 is false without the proviso: both processes have reported the interval, 3 and 4 times "e", and healthd showed 7.  Six minutes later the first process, which
keeps the interval, is polled again and says the same as before; from then on healthd shows 3, although nobody has ever reported anything else. -/
theorem C87_false : ∃ h1 h2 s1 s2, Runs sortAggs (init [bs "h", bs "i"]) h1 s1 ∧ Runs sortAggs (init [bs "h", bs "i"]) (h1 ++ h2) s2 ∧
    Decoded (h1 ++ h2) ∧ Honest (events (agreed (h1 ++ h2)) (h1 ++ h2)) ∧ agreed (h1 ++ h2) = 60000000000 ∧
    (∀ k b, Ev.report k b ∈ events (agreed (h1 ++ h2)) h2 → said (events (agreed (h1 ++ h2)) h1) k = some b) ∧
    (∀ t, ¬ Pending (agreed (h1 ++ h2)) (events (agreed (h1 ++ h2)) (h1 ++ h2)) t) ∧
    s1.intervalAggregations.map (fun a => (a.start, value a (.event (bs "e")))) = [(⟨0, 0⟩, some 7)] ∧
    s2.intervalAggregations.map (fun a => (a.start, value a (.event (bs "e")))) = [(⟨0, 0⟩, some 3)] ∧
    ∀ a ∈ s2.intervalAggregations, ¬ AllTotals (events (agreed (h1 ++ h2)) (h1 ++ h2)) a.start a := by
  have key1 : (after (init [bs "h", bs "i"]) told).map (fun s => s.intervalAggregations.map (fun a => (a.start, value a (.event (bs "e"))))) =
      some [(⟨0, 0⟩, some 7)] := by decide +kernel
  have key2 : (after (init [bs "h", bs "i"]) toldAgain).map (fun s => s.intervalAggregations.map (fun a => (a.start, value a (.event (bs "e"))))) =
      some [(⟨0, 0⟩, some 3)] := by decide +kernel
  obtain ⟨s1, hs1, r1⟩ := Option.map_eq_some_iff.1 key1
  obtain ⟨s2, hs2, r2⟩ := Option.map_eq_some_iff.1 key2
  have hag : agreed (ops (init [bs "h", bs "i"]) toldAgain) = 60000000000 := by rw [agreed_ops hs2]; decide +kernel
  obtain ⟨h2, hsplit⟩ : ∃ h2, ops (init [bs "h", bs "i"]) toldAgain = ops (init [bs "h", bs "i"]) told ++ h2 := by
    have gen : ∀ (cs ds : List Cmd) (s0 : State), ∃ h2, ops s0 (cs ++ ds) = ops s0 cs ++ h2 := by
      intro cs
      induction cs with
      | nil => intro ds s0; exact ⟨_, rfl⟩
      | cons c t ih =>
        intro ds s0
        simp only [List.cons_append, ops]
        cases step sortAggs s0 (c.op s0) with
        | none => exact ⟨[], rfl⟩
        | some s' =>
          obtain ⟨h2, e⟩ := ih ds s'
          exact ⟨h2, by simp [e]⟩
    exact gen _ _ _
  have hev : events 60000000000 (ops (init [bs "h", bs "i"]) told ++ h2) = events 60000000000 (toldAgain.map Cmd.plain) := by rw [← hsplit, events_ops hs2]
  have hev1 : events 60000000000 (ops (init [bs "h", bs "i"]) told) = events 60000000000 (told.map Cmd.plain) := by rw [events_ops hs1]
  have hev2 : events 60000000000 h2 = [.report ⟨⟨0, 0⟩, bs "a", bs "h"⟩ (sentAgg 0 0 1 3), .recalculate] := by
    have : events 60000000000 (ops (init [bs "h", bs "i"]) told ++ h2) = events 60000000000 (ops (init [bs "h", bs "i"]) told) ++ events 60000000000 h2 := by
      simp [events]
    rw [hev, hev1, toldAgain_events, told_events] at this
    simpa using this.symm
  refine ⟨ops (init [bs "h", bs "i"]) told, h2, s1, s2, after_runs hs1, by rw [← hsplit]; exact after_runs hs2, ?_, ?_, by rw [← hsplit]; exact hag, ?_, ?_, r1, r2, ?_⟩
  · rw [← hsplit]
    exact fun r n1 n2 hm => told_decoded (.inl rfl) r n1 n2 (response_mem_ops hm)
  · rw [← hsplit, hag, events_ops hs2]; exact toldAgain_honest
  · rw [← hsplit, hag, hev1, hev2, told_events]
    intro k b hm
    simp only [List.mem_cons, Ev.report.injEq, reduceCtorEq, List.not_mem_nil, or_false] at hm
    rw [hm.1, hm.2]
    rfl
  · intro t
    rw [← hsplit, hag, events_ops hs2, toldAgain_events]
    exact pending_recalculate _ [_, _, _, _, _] _
  · intro a ha
    have hm : (a.start, value a (.event (bs "e"))) ∈ [((⟨0, 0⟩ : Time), some (3 : Int))] := by rw [← r2]; exact List.mem_map_of_mem ha
    simp only [List.mem_singleton, Prod.mk.injEq] at hm
    rw [← hsplit, hag, events_ops hs2, toldAgain_events]
    rintro ⟨ks, h1, h2, h3, _⟩
    have hks : ks.Perm [⟨⟨0, 0⟩, bs "a", bs "h"⟩, ⟨⟨0, 0⟩, bs "b", bs "i"⟩] := by
      rw [List.perm_ext_iff_of_nodup h1 (by decide)]
      intro k
      rw [h2, hm.1]
      simp only [List.mem_cons, Ev.report.injEq, reduceCtorEq, List.not_mem_nil, or_false, false_or]
      constructor
      · rintro ⟨_, b, h | h | h⟩
        · exact .inl h.1
        · exact .inr h.1
        · exact .inl h.1
      · rintro (rfl | rfl)
        · exact ⟨rfl, _, .inl ⟨rfl, rfl⟩⟩
        · exact ⟨rfl, _, .inr (.inl ⟨rfl, rfl⟩)⟩
    have := h3 (.event (bs "e"))
    rw [hm.2, sumI_perm (hks.map _)] at this
    exact absurd this (by decide +kernel)
