import Verif.Props.Healthd
import Mathlib.Order.Interval.Finset.Nat
import Mathlib.Data.Int.Interval
import Mathlib.Algebra.Order.BigOperators.Group.Finset
/-!
# Property C115: healthd's memory stays bounded
-/
open Spec Healthd Unmarshal

namespace Spec
/-- the reports that healthd has accepted start at whole intervals, not after `t0`, and an instant is always given in the same zone. -/
structure RegularReports (h : List Op) (t0 : Int) : Prop where
  whole : ∀ k a, Ev.report k a ∈ events (agreed h) h → agreed h ∣ k.time.ns
  past : ∀ k a, Ev.report k a ∈ events (agreed h) h → k.time.ns ≤ t0
  zone : ∀ k a k' a', Ev.report k a ∈ events (agreed h) h → Ev.report k' a' ∈ events (agreed h) h → k.time.ns = k'.time.ns → k.time = k'.time

/-- the intervals for which healthd keeps what process `inst` at `hp` reported. -/
def keptOf (s : State) (inst hp : Str) : List Time :=
  ((s.hostAggregations.map (·.1)).filter (fun k => k.instanceId = inst ∧ k.hostPort = hp)).map (·.time)
end Spec

namespace Healthd

theorem hostAggregations_reported {sort : List IntAgg → List IntAgg} (hsort : SortsByStart sort) {hosts : List Str} {h : List Op} {s : State}
    (hr : Runs sort (init hosts) h s) (hdec : Decoded h) (hrange : -2 ^ 63 ≤ 5 * agreed h ∧ 5 * agreed h < 2 ^ 63) :
    s.hostAggregations.Wf ∧ ∀ k rep, s.hostAggregations.get? k = some rep → Ev.report k rep.agg ∈ events (agreed h) h := by
  have hph := hr.phase
  have hinv := hr.inv hsort hdec (agreed h) (fun h0 => by
    rcases hph with p | p
    · exact absurd p.1 h0
    · exact p.2.2.2) hrange
  refine ⟨hinv.wfHost, fun k rep hk => ?_⟩
  have := hinv.held k
  rw [hk] at this
  cases hl : latest (agreed h) (events (agreed h) h) k with
  | none => rw [hl] at this; exact absurd this (by simp [Held])
  | some a => rw [hl] at this; exact this.2

/-- at most six whole multiples of `d` lie within five `d` before `t0`. -/
theorem six_multiples {d t0 : Int} (hd : 0 < d) (l : List Int) (hn : l.Nodup) (h : ∀ x ∈ l, d ∣ x ∧ x ≤ t0 ∧ t0 - x ≤ 5 * d) : l.length ≤ 6 := by
  have hn' : (l.map (· / d)).Nodup := by
    refine List.Nodup.map_on ?_ hn
    intro x hx y hy e
    obtain ⟨⟨a, rfl⟩, _⟩ := h x hx
    obtain ⟨⟨b, rfl⟩, _⟩ := h y hy
    simp only [Int.mul_ediv_cancel_left _ (ne_of_gt hd)] at e
    rw [e]
  have hsub : (l.map (· / d)).toFinset ⊆ Finset.Icc (t0 / d - 5) (t0 / d) := by
    intro q hq
    rw [List.mem_toFinset, List.mem_map] at hq
    obtain ⟨x, hx, rfl⟩ := hq
    obtain ⟨⟨a, rfl⟩, h2, h3⟩ := h x hx
    rw [Finset.mem_Icc, Int.mul_ediv_cancel_left _ (ne_of_gt hd)]
    constructor
    · have : t0 / d ≤ a + 5 := by
        have e : t0 ≤ (a + 5) * d := by nlinarith
        have := Int.ediv_le_ediv hd e
        rwa [Int.mul_ediv_cancel _ (ne_of_gt hd)] at this
      omega
    · exact (Int.le_ediv_iff_mul_le hd).2 (by rw [mul_comm]; exact h2)
  have := Finset.card_le_card hsub
  rw [List.toFinset_card_of_nodup hn', List.length_map, Int.card_Icc] at this
  omega

/-- **C115**, partial: after a purge, healthd keeps at most six reports of each process (and at most 7200 s worth of intervals in its time series, `C43_series`), however long
it has been running and however often and whatever the processes have reported, if the reports start at whole intervals and not in the future.
Missing: other reports, for which it is false (`C115_ahead_false`). -/
theorem C115_six_partial {sort : List IntAgg → List IntAgg} (hsort : SortsByStart sort) {hosts : List Str} {h : List Op} {s s' : State}
    (hr : Runs sort (init hosts) h s) (hdec : Decoded h) (hpos : 0 < agreed h) (hmax : 5 * agreed h < 2 ^ 63) {t0 : Int} (hreg : RegularReports h t0)
    {now : Key → Time} (hnow : ∀ k, t0 ≤ (now k).ns) (hs : step sort s (.purge now) = some s') (inst hp : Str) :
    (keptOf s' inst hp).Nodup ∧ (keptOf s' inst hp).length ≤ 6 := by
  have hrange : -2 ^ 63 ≤ 5 * agreed h ∧ 5 * agreed h < 2 ^ 63 := ⟨by omega, hmax⟩
  obtain ⟨hwf, hmem⟩ := hostAggregations_reported hsort hr hdec hrange
  obtain ⟨hget, _⟩ := C48_purge hsort hr hdec hrange now hs
  have hwf' : s'.hostAggregations.Wf := by
    obtain ⟨l, h1, h2⟩ := Option.bind_eq_some_iff.1 (show (truncateAggs _ _).bind _ = some s' from hs)
    rw [← Option.some.inj h2]
    exact wf_filter hwf _
  have hks : ∀ k ∈ s'.hostAggregations.map (·.1), ¬ (now k).ns - k.time.ns > 5 * agreed h ∧ ∃ a, Ev.report k a ∈ events (agreed h) h := by
    intro k hk
    obtain ⟨p, hp, rfl⟩ := List.mem_map.1 hk
    have hg := GoMap.get?_of_mem hwf' (k := p.1) (v := p.2) hp
    rw [hget] at hg
    split at hg
    · cases hg
    · next hn => exact ⟨hn, p.2.agg, hmem _ _ hg⟩
  have hnd : (keptOf s' inst hp).Nodup := by
    refine List.Nodup.map_on ?_ (List.Nodup.filter _ hwf')
    intro x hx y hy e
    have hx := (List.mem_filter.1 hx).2
    have hy := (List.mem_filter.1 hy).2
    simp only [decide_eq_true_eq] at hx hy
    cases x; cases y
    simp_all
  refine ⟨hnd, ?_⟩
  have hall : ∀ t ∈ keptOf s' inst hp, ∃ k : Key, k.time = t ∧ ¬ (now k).ns - k.time.ns > 5 * agreed h ∧ ∃ a, Ev.report k a ∈ events (agreed h) h := by
    intro t ht
    obtain ⟨k, hk, rfl⟩ := List.mem_map.1 ht
    exact ⟨k, rfl, hks k (List.mem_filter.1 hk).1⟩
  have := six_multiples (t0 := t0) hpos ((keptOf s' inst hp).map (·.ns)) (by
    refine List.Nodup.map_on ?_ hnd
    intro x hx y hy e
    obtain ⟨k, rfl, _, a, ha⟩ := hall x hx
    obtain ⟨k', rfl, _, a', ha'⟩ := hall y hy
    exact hreg.zone _ _ _ _ ha ha' e) (by
    intro x hx
    obtain ⟨t, ht, rfl⟩ := List.mem_map.1 hx
    obtain ⟨k, rfl, h1, a, ha⟩ := hall t ht
    refine ⟨hreg.whole _ _ ha, hreg.past _ _ ha, ?_⟩
    have := hnow k
    omega)
  rwa [List.length_map] at this

/-- **C115**, partial: the number of reports is at most six times the number of processes they are from. -/
theorem C115_total_partial {sort : List IntAgg → List IntAgg} (hsort : SortsByStart sort) {hosts : List Str} {h : List Op} {s s' : State}
    (hr : Runs sort (init hosts) h s) (hdec : Decoded h) (hpos : 0 < agreed h) (hmax : 5 * agreed h < 2 ^ 63) {t0 : Int} (hreg : RegularReports h t0)
    {now : Key → Time} (hnow : ∀ k, t0 ≤ (now k).ns) (hs : step sort s (.purge now) = some s') (procs : Finset (Str × Str))
    (hprocs : ∀ p ∈ s'.hostAggregations, (p.1.instanceId, p.1.hostPort) ∈ procs) : s'.hostAggregations.length ≤ 6 * procs.card := by
  have hwf' : s'.hostAggregations.Wf := by
    obtain ⟨l, h1, h2⟩ := Option.bind_eq_some_iff.1 (show (truncateAggs _ _).bind _ = some s' from hs)
    rw [← Option.some.inj h2]
    exact wf_filter (hostAggregations_reported hsort hr hdec ⟨by omega, hmax⟩).1 _
  have hlen : s'.hostAggregations.length = (s'.hostAggregations.map (·.1)).toFinset.card := by
    rw [List.toFinset_card_of_nodup (show (s'.hostAggregations.map (·.1)).Nodup from hwf'), List.length_map]
  rw [hlen]
  refine Finset.card_le_mul_card_image_of_maps_to (f := fun k : Key => (k.instanceId, k.hostPort)) ?_ 6 ?_
  · intro k hk
    obtain ⟨p, hp, rfl⟩ := List.mem_map.1 (List.mem_toFinset.1 hk)
    exact hprocs p hp
  · rintro ⟨inst, hp⟩ _
    obtain ⟨_, h2⟩ := C115_six_partial hsort hr hdec hpos hmax hreg hnow hs inst hp
    unfold keptOf at h2
    rw [List.length_map] at h2
    refine Nat.le_trans (Nat.le_of_eq ?_) h2
    rw [← List.toFinset_card_of_nodup (List.Nodup.filter _ (show (s'.hostAggregations.map (·.1)).Nodup from hwf')), List.toFinset_filter]
    congr 1
    ext k
    simp [Prod.ext_iff]

/-- a case that meets the hypotheses. -/
example : ∃ h s s', Runs sortAggs (init [bs "h", bs "i"]) h s ∧ Decoded h ∧ agreed h = 60000000000 ∧ RegularReports h 120000000000 ∧
    step sortAggs s (.purge (fun _ => ⟨310000000000, 1⟩)) = some s' ∧ s'.hostAggregations.length = 1 := by
  have key : (after (init [bs "h", bs "i"]) story).map (fun s => ((step sortAggs s (.purge (fun _ => ⟨310000000000, 1⟩))).map (·.hostAggregations.length))) = some (some 1) := by
    decide +kernel
  obtain ⟨s, h1, h2, h3, h4, h5⟩ := story_after
  rw [h1, Option.map_some, Option.some.injEq] at key
  obtain ⟨s', h6, h7⟩ := Option.map_eq_some_iff.1 key
  have hev : events (agreed (ops (init [bs "h", bs "i"]) story)) (ops (init [bs "h", bs "i"]) story) = events 60000000000 (story.map Cmd.plain) := by
    rw [h3, events_ops h1]
  refine ⟨_, s, s', h2, h4, h3, ⟨?_, ?_, ?_⟩, h6, h7⟩
  · rw [hev, h3, story_events]
    intro k a hm
    simp only [List.mem_cons, Ev.report.injEq, reduceCtorEq, List.not_mem_nil, or_false, false_or] at hm
    rcases hm with ⟨rfl, _⟩ | ⟨rfl, _⟩ | ⟨rfl, _⟩ | ⟨rfl, _⟩ | ⟨rfl, _⟩ <;> simp
  · rw [hev, story_events]
    intro k a hm
    simp only [List.mem_cons, Ev.report.injEq, reduceCtorEq, List.not_mem_nil, or_false, false_or] at hm
    rcases hm with ⟨rfl, _⟩ | ⟨rfl, _⟩ | ⟨rfl, _⟩ | ⟨rfl, _⟩ | ⟨rfl, _⟩ <;> norm_num
  · rw [hev, story_events]
    intro k a k' a' hm hm'
    simp only [List.mem_cons, Ev.report.injEq, reduceCtorEq, List.not_mem_nil, or_false, false_or] at hm hm'
    rcases hm with ⟨rfl, _⟩ | ⟨rfl, _⟩ | ⟨rfl, _⟩ | ⟨rfl, _⟩ | ⟨rfl, _⟩ <;>
      rcases hm' with ⟨rfl, _⟩ | ⟨rfl, _⟩ | ⟨rfl, _⟩ | ⟨rfl, _⟩ | ⟨rfl, _⟩ <;> simp

namespace Ahead
/-- a process whose clock is ahead by hours reports these intervals, one a minute. -/
def reports (n : Nat) : List (Option Report) := (List.range n).map (fun i => some ⟨sentAgg (60 * (i + 1)) 0 1 1, false⟩)
def response (n : Nat) : PollResponse := ⟨bs "h", ⟨9, 1⟩, none, 200, 5, ⟨bs "a", 60000000000, reports n⟩⟩

theorem reports_succ (n : Nat) : reports (n + 1) = reports n ++ [some ⟨sentAgg (60 * (n + 1)) 0 1 1, false⟩] := by
  simp [reports, List.range_succ]

theorem stored (r : PollResponse) (s : State) (h0 : s.hostAggregations = []) (n : Nat) : ∃ s', storeAll r s (reports n) = some s' ∧
    s'.hostAggregations.map (·.1) = (List.range n).map (fun i : Nat => (⟨⟨60 * (i + 1) * 1000000000, 0⟩, r.response.instanceId, r.hostPort⟩ : Key)) := by
  induction n with
  | zero => exact ⟨s, rfl, by simp [h0]⟩
  | succ n ih =>
    obtain ⟨s1, h1, h2⟩ := ih
    have hnot : (⟨⟨60 * ((n : Int) + 1) * 1000000000, 0⟩, r.response.instanceId, r.hostPort⟩ : Key) ∉ s1.hostAggregations.keys := by
      show _ ∉ s1.hostAggregations.map (·.1)
      rw [h2]
      intro hm
      obtain ⟨i, hi, e⟩ := List.mem_map.1 hm
      rw [List.mem_range] at hi
      simp only [Key.mk.injEq, Time.mk.injEq, and_true] at e
      omega
    have hg : s1.hostAggregations.get? ⟨⟨60 * ((n : Int) + 1) * 1000000000, 0⟩, r.response.instanceId, r.hostPort⟩ = none := by
      rw [← Option.not_isSome_iff_eq_none, GoMap.get?_isSome_iff]; exact hnot
    refine ⟨{ s1 with
      hostAggregations := s1.hostAggregations.set ⟨⟨60 * ((n : Int) + 1) * 1000000000, 0⟩, r.response.instanceId, r.hostPort⟩ ⟨sentAgg (60 * (n + 1)) 0 1 1, false⟩
      intervalsNeedingRecalculation := s1.intervalsNeedingRecalculation.set ⟨60 * ((n : Int) + 1) * 1000000000, 0⟩ () }, ?_, ?_⟩
    · unfold storeAll
      rw [reports_succ, List.foldlM_append]
      rw [show List.foldlM (storeOne r) s (reports n) = some s1 from h1]
      show (storeOne r s1 _).bind _ = _
      unfold storeOne
      dsimp only [sentAgg]
      rw [hg]
      rfl
    · have := GoMap.keys_set s1.hostAggregations ⟨⟨60 * ((n : Int) + 1) * 1000000000, 0⟩, r.response.instanceId, r.hostPort⟩ ⟨sentAgg (60 * (n + 1)) 0 1 1, false⟩
      rw [if_neg hnot] at this
      rw [List.range_succ, List.map_append, ← h2]
      exact this
end Ahead

/-- C115 is false without the condition on the clocks: one answer of a process whose clock is ahead can leave any number of reports in healthd, and no purge removes
them until their time has come. -/
theorem C115_ahead_false (n : Nat) : ∃ h s, Runs sortAggs (init [bs "h"]) h s ∧ agreed h = 60000000000 ∧
    ∀ now : Key → Time, (∀ k, (now k).ns ≤ 60000000000) → ∃ s', step sortAggs s (.purge now) = some s' ∧ (keptOf s' (bs "a") (bs "h")).length = n := by
  let s1 : State := { init [bs "h"] with
    hostStatus := (init [bs "h"]).hostStatus.set (bs "h") (updateStatus ⟨10, 1⟩ ⟨11, 1⟩ (Ahead.response n) (newHost (bs "h")))
    intervalDuration := 60000000000
    maxIntervals := 120 }
  obtain ⟨s, h1, h2⟩ := Ahead.stored (Ahead.response n) s1 rfl n
  obtain ⟨f1, f2, f3, f4⟩ := storeAll_fields h1
  refine ⟨[.response (Ahead.response n) ⟨10, 1⟩ ⟨11, 1⟩], s, Runs.snoc .nil trivial ?_, rfl, ?_⟩
  · exact h1
  · intro now hnow
    refine ⟨{ s with hostAggregations := s.hostAggregations.filter (fun p => ¬ subTime (now p.1) p.1.time > i64 (s.intervalDuration * 5)) }, ?_, ?_⟩
    · have e : truncateAggs s.maxIntervals s.intervalAggregations = some s.intervalAggregations := by rw [f2, f4]; rfl
      show (truncateAggs _ _).bind _ = _
      rw [e]
      rfl
    · have e : s.hostAggregations.filter (fun p => ¬ subTime (now p.1) p.1.time > i64 (s.intervalDuration * 5)) = s.hostAggregations := by
        rw [List.filter_eq_self]
        intro p hp
        have hk : p.1 ∈ s.hostAggregations.map (·.1) := List.mem_map_of_mem hp
        rw [h2] at hk
        obtain ⟨i, _, hi⟩ := List.mem_map.1 hk
        have h5 : i64 (s.intervalDuration * 5) = 300000000000 := by rw [f1]; show i64 (60000000000 * 5) = _; decide +kernel
        have := subTime_gt (t := now p.1) (u := p.1.time) (x := 300000000000) (by norm_num) (by norm_num)
        rw [h5, decide_eq_true_eq, this]
        have := hnow p.1
        rw [← hi] at this ⊢
        simp only at this ⊢
        omega
      simp only [keptOf, e, h2]
      rw [List.filter_eq_self.2, List.length_map, List.length_map, List.length_range]
      intro k hk
      obtain ⟨i, _, rfl⟩ := List.mem_map.1 hk
      simp [Ahead.response]

end Healthd
