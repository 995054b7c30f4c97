import Verif.Lemmas.HealthdRun
import Verif.Lemmas.Decoded
/-!
# healthd's bookkeeping (C41–C45, C48)
`Runs sort (init hosts) h s`: the aggregation loop, started for `hosts`, went through the history `h` (any responses, purges and recalculations in any
order, any map iteration orders) to the state `s`.  `sort` is any function that sorts by start time.
-/
open Spec Healthd Unmarshal

namespace Healthd
/-- the report of `sends`. -/
def sentAgg (start : Int) (loc : Nat) (serial n : Int) : IntAgg := ⟨⟨start * 1000000000, loc⟩, serial, [], ⟨[], [], [(bs "e", n)], []⟩⟩

theorem sentAgg_fits (start : Int) (loc : Nat) {serial n : Int} (h1 : InI64 serial) (h2 : InI64 n) : Unmarshal.AggFits (sentAgg start loc serial n) := by
  refine ⟨h1, .nil, by simp [sentAgg], ⟨⟨.nil, .nil, ?_, .nil⟩, by simp [sentAgg], ?_, by simp [sentAgg]⟩⟩
  · simp [sentAgg, GoMap.Wf, GoMap.keys]
  · simpa [sentAgg] using h2

/-- a successful poll: process `inst` of `host` reports event "e" `n` times for the interval starting at `start` seconds, in time zone `loc`. -/
def sends (host inst : String) (start : Int) (loc : Nat) (serial n : Int) : Cmd :=
  .response ⟨bs host, ⟨9, 1⟩, none, 200, 5, ⟨bs inst, 60000000000,
    [some ⟨sentAgg start loc serial n, false⟩]⟩⟩ ⟨10, 1⟩ ⟨11, 1⟩

/-- a history for the examples: two processes on one host and one on another, an update, a repetition, a failed poll, a purge of nothing. -/
def story : List Cmd := [sends "h" "a" 0 0 1 1, sends "h" "b" 0 0 1 10, .recalculate, sends "h" "a" 0 0 2 2, sends "i" "c" 60 0 1 5, sends "i" "c" 60 0 1 5,
  .response ⟨bs "i", ⟨12, 1⟩, some (bs "refused"), 0, 0, ⟨[], 0, []⟩⟩ ⟨13, 1⟩ ⟨13, 1⟩, .purge (fun _ => ⟨120000000000, 1⟩)]

theorem story_events : events 60000000000 (story.map Cmd.plain) =
    [.report ⟨⟨0, 0⟩, bs "a", bs "h"⟩ (sentAgg 0 0 1 1), .report ⟨⟨0, 0⟩, bs "b", bs "h"⟩ (sentAgg 0 0 1 10), .recalculate,
      .report ⟨⟨0, 0⟩, bs "a", bs "h"⟩ (sentAgg 0 0 2 2), .report ⟨⟨60000000000, 0⟩, bs "c", bs "i"⟩ (sentAgg 60 0 1 5),
      .report ⟨⟨60000000000, 0⟩, bs "c", bs "i"⟩ (sentAgg 60 0 1 5), .purge (fun _ => ⟨120000000000, 1⟩)] := by
  rfl

theorem story_decoded : Decoded (story.map Cmd.plain) := by
  intro r n1 n2 hm hs rep hrep
  have : Unmarshal.AggFits rep.agg := by
    simp only [story, sends, List.map_cons, List.map_nil, Cmd.plain, List.mem_cons, Op.response.injEq, reduceCtorEq, List.not_mem_nil, or_false, false_or] at hm
    rcases hm with ⟨rfl, _, _⟩ | ⟨rfl, _, _⟩ | ⟨rfl, _, _⟩ | ⟨rfl, _, _⟩ | ⟨rfl, _, _⟩ | ⟨rfl, _, _⟩ <;>
      simp only [List.mem_singleton, Option.some.injEq, List.not_mem_nil] at hrep <;> rw [hrep] <;>
      exact sentAgg_fits _ _ (by unfold InI64; norm_num) (by unfold InI64; norm_num)
  exact ⟨this.wf, this.range⟩

theorem story_honest : Honest (events 60000000000 (story.map Cmd.plain)) := by
  rw [story_events]
  intro k a b h1 h2 he
  simp only [List.mem_cons, Ev.report.injEq, reduceCtorEq, List.not_mem_nil, or_false, false_or] at h1 h2
  have : a = b := by
    rcases h1 with ⟨rfl, rfl⟩ | ⟨rfl, rfl⟩ | ⟨rfl, rfl⟩ | ⟨rfl, rfl⟩ | ⟨rfl, rfl⟩ <;>
    rcases h2 with ⟨h, rfl⟩ | ⟨h, rfl⟩ | ⟨h, rfl⟩ | ⟨h, rfl⟩ | ⟨h, rfl⟩ <;> first | rfl | (exfalso; revert h he; decide)
  rw [this]
  exact ⟨fun _ => rfl, fun _ => rfl, fun _ => rfl⟩

theorem story_after : ∃ s, after (init [bs "h", bs "i"]) story = some s ∧ Runs sortAggs (init [bs "h", bs "i"]) (ops (init [bs "h", bs "i"]) story) s ∧
    agreed (ops (init [bs "h", bs "i"]) story) = 60000000000 ∧ Decoded (ops (init [bs "h", bs "i"]) story) ∧
    Honest (events 60000000000 (ops (init [bs "h", bs "i"]) story)) := by
  have key : (after (init [bs "h", bs "i"]) story).isSome = true := by decide +kernel
  obtain ⟨s, hs⟩ := Option.isSome_iff_exists.1 key
  exact ⟨s, hs, after_runs hs, by rw [agreed_ops hs]; decide +kernel, fun r n1 n2 hm => story_decoded r n1 n2 (response_mem_ops hm),
    by rw [events_ops hs]; exact story_honest⟩
end Healthd

/-! ## C41 -/

/-- C41: after a recalculation, every interval of the time series that had news shows the totals over all processes of their latest reports; so does
every other interval for which no data has been purged.  An interval that had news is in the series unless the series is full of newer ones. -/
theorem C41_totals {sort : List IntAgg → List IntAgg} (hsort : SortsByStart sort) {hosts : List Str} {h : List Op} {s s' : State}
    (hr : Runs sort (init hosts) h s) {ks : List Time} {entries : Time → List (Key × Report)} (hv : (Op.recalculate ks entries).Valid s)
    (hs : step sort s (.recalculate ks entries) = some s')
    (hdec : Decoded h) (hhon : Honest (events (agreed h) h)) (hrange : -2 ^ 63 ≤ 5 * agreed h ∧ 5 * agreed h < 2 ^ 63) :
    let d := agreed h
    let es := events d h
    (∀ a ∈ s'.intervalAggregations, Pending d es a.start ∨ NeverStale d es a.start → Totals d es a.start a) ∧
    (∀ t, Pending d es t → (∃ a ∈ s'.intervalAggregations, a.start = t) ∨
      ((s'.intervalAggregations.length : Int) = s'.maxIntervals ∧ ∀ a ∈ s'.intervalAggregations, t.ns ≤ a.start.ns)) := by
  have hd : s.intervalDuration ≠ 0 → agreed h = s.intervalDuration := by
    intro h0
    rcases hr.phase with p | p
    · exact absurd p.1 h0
    · exact p.2.2.2
  have hinv := hr.inv hsort hdec (agreed h) hd hrange
  obtain ⟨h1, h2, h3, h4, _⟩ := hinv.recalculate hsort (reportsOk_events hdec _) hv.1 hv.2 hs
  refine ⟨?_, ?_⟩
  · intro a ha hp
    by_cases hpend : Pending (agreed h) (events (agreed h) h) a.start
    · exact h3 a ha hpend hhon
    · exact hinv.totals hhon a (h4 a ha hpend) hpend (hp.resolve_left hpend)
  · intro t ht
    rcases h2 t ht with h5 | h5
    · left
      obtain ⟨a, ha, e⟩ := List.mem_map.1 h5
      exact ⟨a, ha, e⟩
    · exact .inr h5

/-- a case that meets the hypotheses, and what healthd shows: 12 and 5. -/
example : ∃ h s ks entries s', Runs sortAggs (init [bs "h", bs "i"]) h s ∧ (Op.recalculate ks entries).Valid s ∧
    step sortAggs s (.recalculate ks entries) = some s' ∧ Decoded h ∧ Honest (events (agreed h) h) ∧ agreed h = 60000000000 ∧
    s'.intervalAggregations.map (fun a => value a (.event (bs "e"))) = [some 12, some 5] ∧ Pending (agreed h) (events (agreed h) h) ⟨60000000000, 0⟩ := by
  have key : ((after (init [bs "h", bs "i"]) story).bind (fun s => step sortAggs s (Cmd.recalculate.op s))).map
      (fun s => s.intervalAggregations.map (fun a => value a (.event (bs "e")))) = some [some 12, some 5] := by decide +kernel
  obtain ⟨s, h1, h2, h3, h4, h5⟩ := story_after
  rw [h1, Option.bind_some] at key
  obtain ⟨s', h6, h7⟩ := Option.map_eq_some_iff.1 key
  refine ⟨_, s, _, _, s', h2, Cmd.op_valid s .recalculate, h6, h4, by rw [h3]; exact h5, h3, h7, ?_⟩
  rw [h3, events_ops h1, story_events]
  exact ⟨_, _, _, _, List.append_assoc [_, _, _, _] [] _, rfl, by decide, by simp⟩

/-! ## C42 -/

theorem storeAll_known {d : Int} {es : List Ev} {s : State} (hinv : Inv d es s) (r : PollResponse) (l : List (Option Report)) (h0 : none ∉ l)
    (hk : ∀ rep, some rep ∈ l → (latest d es ⟨rep.agg.start, r.response.instanceId, r.hostPort⟩).map (·.serial) = some rep.agg.serial) :
    storeAll r s l = some s := by
  induction l with
  | nil => rfl
  | cons o t ih =>
    unfold storeAll
    rw [List.foldlM_cons]
    cases o with
    | none => simp at h0
    | some rep =>
      have h1 : storeOne r s (some rep) = some s := by
        have hs := hk rep (by simp)
        have hh := hinv.held ⟨rep.agg.start, r.response.instanceId, r.hostPort⟩
        unfold storeOne
        simp only
        cases hl : latest d es ⟨rep.agg.start, r.response.instanceId, r.hostPort⟩ with
        | none => rw [hl] at hs; cases hs
        | some a =>
          rw [hl] at hh hs
          cases hg : s.hostAggregations.get? ⟨rep.agg.start, r.response.instanceId, r.hostPort⟩ with
          | none => rw [hg] at hh; cases hh
          | some e =>
            rw [hg] at hh
            simp only
            rw [if_pos]
            rw [hh.1]
            simpa using hs
      rw [h1]
      exact ih (by simpa using h0) (fun rep hm => hk rep (by simp [hm]))

/-- C42: a response whose intervals are all known with the same serial numbers changes no aggregation and asks for no recalculation. -/
theorem C42_known {sort : List IntAgg → List IntAgg} (hsort : SortsByStart sort) {hosts : List Str} {h : List Op} {s : State}
    (hr : Runs sort (init hosts) h s) (hdec : Decoded h) (hrange : -2 ^ 63 ≤ 5 * agreed h ∧ 5 * agreed h < 2 ^ 63)
    (r : PollResponse) (now1 now2 : Time) (h0 : none ∉ r.response.aggs) (hd : r.response.intervalDuration = agreed h)
    (hk : ∀ rep, some rep ∈ r.response.aggs →
      (latest (agreed h) (events (agreed h) h) ⟨rep.agg.start, r.response.instanceId, r.hostPort⟩).map (·.serial) = some rep.agg.serial)
    (hne : r.response.aggs ≠ []) :
    ∃ s', step sort s (.response r now1 now2) = some s' ∧ s'.intervalAggregations = s.intervalAggregations ∧
      s'.hostAggregations = s.hostAggregations ∧ s'.intervalsNeedingRecalculation = s.intervalsNeedingRecalculation ∧
      s'.intervalDuration = s.intervalDuration ∧ s'.maxIntervals = s.maxIntervals := by
  have hph := hr.phase
  have hinv := hr.inv hsort hdec (agreed h) (fun h0 => by
    rcases hph with p | p
    · exact absurd p.1 h0
    · exact p.2.2.2) hrange
  have hne0 : s.intervalDuration ≠ 0 := by
    rcases hph with p | p
    · exfalso
      cases hh : r.response.aggs with
      | nil => exact hne hh
      | cons o t =>
        cases o with
        | none => rw [hh] at h0; simp at h0
        | some rep =>
          have := hk rep (by rw [hh]; simp)
          rw [latest_none] at this
          · cases this
          · intro k a hm
            obtain ⟨r', a', b', _, q1, q2, _⟩ := events_report_mem hm
            exact p.2.2.1 r' a' b' q1 q2
    · exact p.1
  have hag : agreed h = s.intervalDuration := by
    rcases hph with p | p
    · exact absurd p.1 hne0
    · exact p.2.2.2
  obtain ⟨n1, n2, n3, n4, n5⟩ := noteStatus_fields now1 now2 s r
  have hst : storeAll r (noteStatus now1 now2 s r) r.response.aggs = some (noteStatus now1 now2 s r) :=
    storeAll_known (hinv.congr n3 n4 n2 n5) r _ h0 hk
  have hstep : step sort s (.response r now1 now2) = some (noteStatus now1 now2 s r) := by
    show consumePollResponse now1 now2 s r = _
    rw [consume_eq, n1, if_neg hne0, hd, hag]
    simp [hst]
  exact ⟨_, hstep, n5, n3, n4, n1, n2⟩

/-- a case that meets the hypotheses: after the story, process c is asked once more. -/
example : ∃ (h : List Op) (s : State) (r : PollResponse), Runs sortAggs (init [bs "h", bs "i"]) h s ∧ Decoded h ∧ agreed h = 60000000000 ∧ none ∉ r.response.aggs ∧
    r.response.intervalDuration = agreed h ∧ r.response.aggs ≠ [] ∧ (∀ rep, some rep ∈ r.response.aggs →
      (latest (agreed h) (events (agreed h) h) ⟨rep.agg.start, r.response.instanceId, r.hostPort⟩).map (·.serial) = some rep.agg.serial) := by
  obtain ⟨s, h1, h2, h3, h4, h5⟩ := story_after
  refine ⟨_, s, ⟨bs "i", ⟨9, 1⟩, none, 200, 5, ⟨bs "c", 60000000000, [some ⟨sentAgg 60 0 1 5, false⟩]⟩⟩, h2, h4, h3, by simp, h3.symm, by simp, ?_⟩
  rw [h3, events_ops h1, story_events]
  intro rep hrep
  simp only [List.mem_singleton, Option.some.injEq] at hrep
  subst hrep
  decide +kernel

/-! ## C43 -/

/-- C43: the time series is sorted by start time, has no start twice, has at most retain/interval entries, and of all intervals ever calculated the newest
are kept: one that is not in the series is not newer than any of a full series. -/
theorem C43_series {sort : List IntAgg → List IntAgg} (hsort : SortsByStart sort) {hosts : List Str} {h : List Op} {s : State}
    (hr : Runs sort (init hosts) h s) (hdec : Decoded h) (hrange : -2 ^ 63 ≤ 5 * agreed h ∧ 5 * agreed h < 2 ^ 63) (hpos : 0 ≤ agreed h) :
    (s.intervalAggregations.map (·.start)).Nodup ∧ s.intervalAggregations.Pairwise (fun a b => a.start.ns ≤ b.start.ns) ∧
    (s.intervalAggregations.length : Int) ≤ 7200000000000 / agreed h ∧
    (∀ a ∈ s.intervalAggregations, Calculated (agreed h) (events (agreed h) h) a.start) ∧
    (∀ t, Calculated (agreed h) (events (agreed h) h) t → (∃ a ∈ s.intervalAggregations, a.start = t) ∨
      ((s.intervalAggregations.length : Int) = 7200000000000 / agreed h ∧ ∀ a ∈ s.intervalAggregations, t.ns ≤ a.start.ns)) := by
  have hph := hr.phase
  have hinv := hr.inv hsort hdec (agreed h) (fun h0 => by
    rcases hph with p | p
    · exact absurd p.1 h0
    · exact p.2.2.2) hrange
  have hm : s.maxIntervals = 7200000000000 / agreed h := by
    rcases hph with p | p
    · rw [p.2.1, p.2.2.2]; rfl
    · rw [p.2.1, ← p.2.2.2, retain]
      exact Int.tdiv_eq_ediv_of_nonneg (by omega)
  have hm0 : 0 ≤ s.maxIntervals := by rw [hm]; exact Int.ediv_nonneg (by omega) hpos
  refine ⟨hinv.series.nodup, ?_, ?_, hinv.only, ?_⟩
  · have := hinv.series.sorted
    rwa [List.pairwise_map] at this
  · have := hinv.series.len
    omega
  · intro t ht
    rw [← hm]
    rcases hinv.kept t ht with h5 | h5
    · left
      obtain ⟨a, ha, e⟩ := List.mem_map.1 h5
      exact ⟨a, ha, e⟩
    · exact .inr h5

/-- C43, strictly increasing.  Partial: only if all reports of the same instant use the same `*Location` (see `C43_false`). -/
theorem C43_strict_partial {sort : List IntAgg → List IntAgg} (hsort : SortsByStart sort) {hosts : List Str} {h : List Op} {s : State}
    (hr : Runs sort (init hosts) h s) (hdec : Decoded h) (hrange : -2 ^ 63 ≤ 5 * agreed h ∧ 5 * agreed h < 2 ^ 63)
    (hloc : ∀ k a k' a', Ev.report k a ∈ events (agreed h) h → Ev.report k' a' ∈ events (agreed h) h → k.time.ns = k'.time.ns → k.time = k'.time) :
    s.intervalAggregations.Pairwise (fun a b => a.start.ns < b.start.ns) := by
  have hph := hr.phase
  have hinv := hr.inv hsort hdec (agreed h) (fun h0 => by
    rcases hph with p | p
    · exact absurd p.1 h0
    · exact p.2.2.2) hrange
  have h1 := hinv.series.sorted
  rw [List.pairwise_map] at h1
  have h2 := hinv.series.nodup
  rw [List.Nodup, List.pairwise_map] at h2
  refine (h1.and h2).imp_of_mem ?_
  rintro a b ha hb ⟨hle, hne⟩
  have src : ∀ x ∈ s.intervalAggregations, ∃ k c, Ev.report k c ∈ events (agreed h) h ∧ k.time = x.start := by
    intro x hx
    obtain ⟨es1, es2, he, es3, k, c, es4, he2, hk, _⟩ := hinv.only x hx
    exact ⟨k, c, by rw [he, he2]; simp, hk⟩
  obtain ⟨k, c, m1, e1⟩ := src a ha
  obtain ⟨k', c', m2, e2⟩ := src b hb
  rcases lt_or_eq_of_le hle with h | h
  · exact h
  · exfalso
    apply hne
    rw [← e1, ← e2]
    exact hloc _ _ _ _ m1 m2 (by rw [e1, e2, h])

/-- a case that meets the hypotheses of C43_series and C43_strict_partial. -/
example : ∃ h s, Runs sortAggs (init [bs "h", bs "i"]) h s ∧ Decoded h ∧ agreed h = 60000000000 ∧ (∀ k a k' a',
    Ev.report k a ∈ events (agreed h) h → Ev.report k' a' ∈ events (agreed h) h → k.time.ns = k'.time.ns → k.time = k'.time) := by
  obtain ⟨s, h1, h2, h3, h4, h5⟩ := story_after
  refine ⟨_, s, h2, h4, h3, ?_⟩
  rw [h3, events_ops h1, story_events]
  intro k a k' a' m1 m2 he
  simp only [List.mem_cons, Ev.report.injEq, reduceCtorEq, List.not_mem_nil, or_false, false_or] at m1 m2
  have h1 : k.time.loc = 0 := by rcases m1 with m | m | m | m | m <;> rw [m.1]
  have h2 : k'.time.loc = 0 := by rcases m2 with m | m | m | m | m <;> rw [m.1]
  cases hk : k.time
  cases hk' : k'.time
  rw [hk] at he h1
  rw [hk'] at he h2
  simp_all

/-- C43, strictly increasing, is false: hosts that write their times in UTC and in Paris' zone make the same instant appear twice. -/
theorem C43_false : ∃ h s a b, Runs sortAggs (init [bs "h", bs "i"]) h s ∧ s.intervalAggregations = [a, b] ∧ a.start.ns = b.start.ns := by
  have key : (after (init [bs "h", bs "i"]) [
      got "h" 0 "{\"instance_id\":\"a\",\"interval_duration\":60000000000,\"aggregations\":[{\"interval_start\":\"2011-09-09T21:36:00Z\",\"serial_number\":1,\"events\":{\"e\":1}}]}",
      got "i" 1 "{\"instance_id\":\"b\",\"interval_duration\":60000000000,\"aggregations\":[{\"interval_start\":\"2011-09-09T23:36:00+02:00\",\"serial_number\":1,\"events\":{\"e\":2}}]}",
      .recalculate]).map (fun s => s.intervalAggregations.map (fun a => a.start.ns)) =
      some [63451200960000000000, 63451200960000000000] := by decide +kernel
  obtain ⟨s, h1, h2⟩ := Option.map_eq_some_iff.1 key
  obtain ⟨a, l1, e1, ha, h3⟩ := List.map_eq_cons_iff.1 h2
  obtain ⟨b, l2, rfl, hb, h4⟩ := List.map_eq_cons_iff.1 h3
  have : l2 = [] := List.map_eq_nil_iff.1 h4
  subst this
  exact ⟨_, s, a, b, after_runs h1, e1, by rw [ha, hb]⟩

/-! ## C44 -/

namespace Spec
/-- the responses from one host, with the clock readings. -/
def responsesFrom (hp : Str) (h : List Op) : List (PollResponse × Time × Time) :=
  h.filterMap (fun
    | .response r n1 n2 => if r.hostPort = hp then some (r, n1, n2) else none
    | _ => none)

/-- what the status of a host should be. -/
structure StatusOf (hp : Str) (rs : List (PollResponse × Time × Time)) (hs : HostStatus) : Prop where
  host : hs.hostPort = hp
  never : rs = [] → hs = newHost hp
  last : ∀ r n1 n2, rs.getLast? = some (r, n1, n2) → hs.lastCheckTime = r.timestamp ∧ hs.lastInstanceId = r.response.instanceId ∧
    hs.lastIntervalDuration = r.response.intervalDuration ∧ hs.lastNanos = r.nanos ∧ hs.lastCode = r.code ∧ hs.lastErr = r.err.getD []
  firstSuccess : hs.firstSuccessfulResponse = ((rs.filter (fun p => Succeeded p.1)).head?.map (·.2.1)).getD ⟨0, 0⟩
  lastSuccess : hs.lastSuccessfulResponse = ((rs.filter (fun p => Succeeded p.1)).getLast?.map (·.2.2)).getD ⟨0, 0⟩
end Spec

theorem responsesFrom_snoc (hp : Str) (h : List Op) (op : Op) :
    Spec.responsesFrom hp (h ++ [op]) = Spec.responsesFrom hp h ++ Spec.responsesFrom hp [op] := by
  unfold Spec.responsesFrom; simp

theorem statusOf_update {hp : Str} {rs : List (PollResponse × Time × Time)} {hs : HostStatus} (h : Spec.StatusOf hp rs hs) (r : PollResponse) (n1 n2 : Time)
    (hz : ∀ p ∈ rs, p.2.1.ns ≠ 0) : Spec.StatusOf hp (rs ++ [(r, n1, n2)]) (updateStatus n1 n2 r hs) := by
  have hz1 : isZero hs.firstSuccessfulResponse = (rs.filter (fun p => Succeeded p.1)).isEmpty := by
    rw [h.firstSuccess]
    cases hh : rs.filter (fun p => Succeeded p.1) with
    | nil => rfl
    | cons p t =>
      have := hz p (List.mem_of_mem_filter (by rw [hh]; simp))
      simp [isZero, this]
  by_cases hsuc : Succeeded r
  · have hu : updateStatus n1 n2 r hs = { hs with
        lastCheckTime := r.timestamp, lastNanos := r.nanos, lastInstanceId := r.response.instanceId,
        lastIntervalDuration := r.response.intervalDuration, lastCode := r.code, lastErr := [],
        firstSuccessfulResponse := if isZero hs.firstSuccessfulResponse then n1 else hs.firstSuccessfulResponse, lastSuccessfulResponse := n2 } := by
      unfold updateStatus
      simp only [hsuc.1, hsuc.2, and_self, if_true]
      split <;> simp_all
    rw [hu]
    refine ⟨h.host, by simp, ?_, ?_, ?_⟩
    · intro r' a b e
      simp only [List.getLast?_append, List.getLast?_singleton, Option.or_some, Option.some_or, Option.some.injEq, Prod.mk.injEq] at e
      obtain ⟨rfl, rfl, rfl⟩ := e
      exact ⟨rfl, rfl, rfl, rfl, rfl, by simp [hsuc.2]⟩
    · simp only [hz1]
      rw [List.filter_append, h.firstSuccess]
      cases hh : rs.filter (fun p => Succeeded p.1) <;> simp [hsuc]
    · rw [List.filter_append]
      simp [hsuc]
  · have hu : updateStatus n1 n2 r hs = { hs with
        lastCheckTime := r.timestamp, lastNanos := r.nanos, lastInstanceId := r.response.instanceId,
        lastIntervalDuration := r.response.intervalDuration, lastCode := r.code, lastErr := r.err.getD [] } := by
      unfold updateStatus
      have : ¬ (r.code = 200 ∧ r.err = none) := hsuc
      simp only [if_neg this]
      cases r.err <;> rfl
    rw [hu]
    have hf : (rs ++ [(r, n1, n2)]).filter (fun p => Succeeded p.1) = rs.filter (fun p => Succeeded p.1) := by
      simp [hsuc]
    refine ⟨h.host, by simp, ?_, by rw [hf]; exact h.firstSuccess, by rw [hf]; exact h.lastSuccess⟩
    intro r' a b e
    simp only [List.getLast?_append, List.getLast?_singleton, Option.or_some, Option.some_or, Option.some.injEq, Prod.mk.injEq] at e
    obtain ⟨rfl, rfl, rfl⟩ := e
    exact ⟨rfl, rfl, rfl, rfl, rfl, rfl⟩

theorem init_hosts (hosts : List Str) : (∀ hp hs, (init hosts).hostStatus.get? hp = some hs → hs = newHost hp) ∧
    ∀ hp, hp ∈ (init hosts).hostStatus.keys ↔ hp ∈ hosts := by
  unfold init
  simp only
  induction hosts using snocInduction with
  | nil => simp [GoMap.get?, GoMap.keys]
  | snoc l x ih =>
    rw [List.foldl_append, List.foldl_cons, List.foldl_nil]
    constructor
    · intro hp hs h
      rw [GoMap.get?_set] at h
      split at h
      · next e => cases h; rw [e]
      · exact ih.1 hp hs h
    · intro hp
      rw [GoMap.mem_keys_set, ih.2]
      simp [or_comm]

/-- C44: at any time the hosts are the monitored ones, and the status of each shows its last response and its first and last success; a response changes
nothing about the other hosts. (The clock is not at the zero time, January 1 of year 1.) -/
theorem C44_status {sort : List IntAgg → List IntAgg} {hosts : List Str} {h : List Op} {s : State}
    (hr : Runs sort (init hosts) h s) (hz : ∀ r n1 n2, Op.response r n1 n2 ∈ h → n1.ns ≠ 0) :
    (∀ hp, hp ∈ s.hostStatus.keys ↔ hp ∈ hosts) ∧
    (∀ hp hs, s.hostStatus.get? hp = some hs → Spec.StatusOf hp (Spec.responsesFrom hp h) hs) := by
  induction hr with
  | nil =>
    refine ⟨(init_hosts hosts).2, ?_⟩
    intro hp hs hg
    rw [(init_hosts hosts).1 hp hs hg]
    exact ⟨rfl, fun _ => rfl, by simp [Spec.responsesFrom], by simp [Spec.responsesFrom, newHost, zeroTime], by simp [Spec.responsesFrom, newHost, zeroTime]⟩
  | @snoc ops s1 s2 op hr hv hs ih =>
    have ih := ih (fun r n1 n2 hm => hz r n1 n2 (by simp [hm]))
    have same : s2.hostStatus = s1.hostStatus → (∀ hp, Spec.responsesFrom hp [op] = []) →
        (∀ hp, hp ∈ s2.hostStatus.keys ↔ hp ∈ hosts) ∧
        (∀ hp hs, s2.hostStatus.get? hp = some hs → Spec.StatusOf hp (Spec.responsesFrom hp (ops ++ [op])) hs) := by
      intro e1 e2
      rw [e1]
      refine ⟨ih.1, ?_⟩
      intro hp hs hg
      rw [responsesFrom_snoc, e2, List.append_nil]
      exact ih.2 hp hs hg
    cases op with
    | response r n1 n2 =>
      have hst : s2.hostStatus = (noteStatus n1 n2 s1 r).hostStatus := by
        rcases consume_cases hs with ⟨_, h2⟩ | ⟨_, _, _, h4⟩ | ⟨_, _, _, h4⟩ | ⟨_, _, _, h4⟩
        · rw [h2]
        · exact (storeAll_fields h4).2.2.1
        · rw [h4]
        · exact (storeAll_fields h4).2.2.1
      rw [hst]
      unfold noteStatus
      cases hg : s1.hostStatus.get? r.hostPort with
      | none =>
        simp only
        refine ⟨ih.1, ?_⟩
        intro hp hs hg2
        have hne : r.hostPort ≠ hp := by
          intro e; rw [e] at hg; rw [hg] at hg2; cases hg2
        rw [responsesFrom_snoc]
        have : Spec.responsesFrom hp [.response r n1 n2] = [] := by simp [Spec.responsesFrom, hne]
        rw [this, List.append_nil]
        exact ih.2 hp hs hg2
      | some hs0 =>
        simp only
        refine ⟨?_, ?_⟩
        · intro hp
          rw [GoMap.mem_keys_set]
          constructor
          · rintro (rfl | h1)
            · exact (ih.1 _).1 (GoMap.mem_keys_of_get? hg)
            · exact (ih.1 _).1 h1
          · intro h1; exact .inr ((ih.1 _).2 h1)
        · intro hp hs hg2
          rw [GoMap.get?_set] at hg2
          rw [responsesFrom_snoc]
          split at hg2
          · next e =>
            subst e
            cases hg2
            have : Spec.responsesFrom r.hostPort [.response r n1 n2] = [(r, n1, n2)] := by simp [Spec.responsesFrom]
            rw [this]
            refine statusOf_update (ih.2 _ _ hg) r n1 n2 ?_
            rintro ⟨r', a, b⟩ hm
            unfold Spec.responsesFrom at hm
            rw [List.mem_filterMap] at hm
            obtain ⟨op, h1, h2⟩ := hm
            cases op with
            | response r'' a' b' =>
              simp only [Option.ite_none_right_eq_some, Option.some.injEq, Prod.mk.injEq] at h2
              obtain ⟨_, rfl, rfl, rfl⟩ := h2
              exact hz _ _ _ (List.mem_append_left _ h1)
            | purge now => simp at h2
            | recalculate ks en => simp at h2
          · next e =>
            have : Spec.responsesFrom hp [.response r n1 n2] = [] := by simp [Spec.responsesFrom, Ne.symm e]
            rw [this, List.append_nil]
            exact ih.2 hp hs hg2
    | purge now =>
      obtain ⟨l, h1, h2⟩ := Option.bind_eq_some_iff.1 (show (truncateAggs _ _).bind _ = some s2 from hs)
      refine same ?_ (fun hp => by simp [Spec.responsesFrom])
      rw [← Option.some.inj h2]
    | recalculate ks en =>
      refine same ?_ (fun hp => by simp [Spec.responsesFrom])
      obtain ⟨s3, h1, h2⟩ := Option.bind_eq_some_iff.1 (show (ks.foldlM (recalculateOne sort en) s1).bind _ = some s2 from hs)
      rw [← Option.some.inj h2]
      exact (recalculate_fields h1).2.2.1

/-- a case that meets the hypotheses. -/
example : ∃ h s, Runs sortAggs (init [bs "h", bs "i"]) h s ∧ (∀ r n1 n2, Op.response r n1 n2 ∈ h → n1.ns ≠ 0) ∧
    s.hostStatus.get? (bs "i") = some ⟨bs "i", ⟨12, 1⟩, [], 0, bs "refused", 0, 0, ⟨10, 1⟩, ⟨11, 1⟩⟩ := by
  have key : (after (init [bs "h", bs "i"]) story).map (fun s => s.hostStatus.get? (bs "i")) =
      some (some ⟨bs "i", ⟨12, 1⟩, [], 0, bs "refused", 0, 0, ⟨10, 1⟩, ⟨11, 1⟩⟩) := by decide +kernel
  obtain ⟨s, h1, h2⟩ := Option.map_eq_some_iff.1 key
  refine ⟨_, s, after_runs h1, ?_, h2⟩
  intro r n1 n2 hm
  have hm := response_mem_ops hm
  simp only [story, sends, List.map_cons, List.map_nil, Cmd.plain, List.mem_cons, Op.response.injEq, reduceCtorEq, List.not_mem_nil, or_false, false_or] at hm
  rcases hm with ⟨_, rfl, _⟩ | ⟨_, rfl, _⟩ | ⟨_, rfl, _⟩ | ⟨_, rfl, _⟩ | ⟨_, rfl, _⟩ | ⟨_, rfl, _⟩ <;> decide

/-! ## C45 -/

/-- C45: a response with an error, with a status other than 200, or with an interval duration other than that of the first successful response changes
no aggregation. -/
theorem C45_no_data {sort : List IntAgg → List IntAgg} {hosts : List Str} {h : List Op} {s : State} (hr : Runs sort (init hosts) h s)
    (r : PollResponse) (now1 now2 : Time)
    (hbad : r.err ≠ none ∨ r.code ≠ 200 ∨ ((∃ r' n1 n2, Op.response r' n1 n2 ∈ h ∧ Succeeded r') ∧ r.response.intervalDuration ≠ agreed h)) :
    ∃ s', step sort s (.response r now1 now2) = some s' ∧ s'.intervalAggregations = s.intervalAggregations ∧
      s'.hostAggregations = s.hostAggregations ∧ s'.intervalsNeedingRecalculation = s.intervalsNeedingRecalculation ∧
      s'.intervalDuration = s.intervalDuration ∧ s'.maxIntervals = s.maxIntervals := by
  obtain ⟨n1, n2, n3, n4, n5⟩ := noteStatus_fields now1 now2 s r
  refine ⟨noteStatus now1 now2 s r, ?_, n5, n3, n4, n1, n2⟩
  show consumePollResponse now1 now2 s r = _
  rw [consume_eq]
  by_cases hsuc : Succeeded r
  · have hb := (hbad.resolve_left (fun x => x hsuc.2)).resolve_left (fun x => x hsuc.1)
    rcases hr.phase with p | p
    · obtain ⟨r', a, b, h1, h2⟩ := hb.1
      exact absurd h2 (p.2.2.1 r' a b h1)
    · have hne : s.intervalDuration ≠ r.response.intervalDuration := by rw [← p.2.2.2]; exact fun e => hb.2 e.symm
      have : r.code = 200 ∧ r.err = none := hsuc
      rw [if_pos this, n1, if_neg p.1, if_pos hne]
  · exact if_neg hsuc

/-- a case that meets the hypotheses: another interval duration after the story. -/
example : ∃ (h : List Op) (s : State) (r : PollResponse), Runs sortAggs (init [bs "h", bs "i"]) h s ∧ (∃ r' n1 n2, Op.response r' n1 n2 ∈ h ∧ Succeeded r') ∧ Succeeded r ∧
    r.response.intervalDuration ≠ agreed h := by
  obtain ⟨s, h1, h2, h3, h4, h5⟩ := story_after
  refine ⟨_, s, ⟨bs "i", ⟨9, 1⟩, none, 200, 5, ⟨bs "c", 50000000000, []⟩⟩, h2, ?_, ⟨rfl, rfl⟩, by rw [h3]; decide⟩
  exact ⟨_, ⟨10, 1⟩, ⟨11, 1⟩, List.mem_cons_self, rfl, rfl⟩

/-! ## C48 -/

/-- C48: a purge removes exactly the host reports of intervals that started more than five intervals ago, and changes nothing else. -/
theorem C48_purge {sort : List IntAgg → List IntAgg} (hsort : SortsByStart sort) {hosts : List Str} {h : List Op} {s s' : State}
    (hr : Runs sort (init hosts) h s) (hdec : Decoded h) (hrange : -2 ^ 63 ≤ 5 * agreed h ∧ 5 * agreed h < 2 ^ 63) (now : Key → Time)
    (hs : step sort s (.purge now) = some s') :
    (∀ k, s'.hostAggregations.get? k = if (now k).ns - k.time.ns > 5 * agreed h then none else s.hostAggregations.get? k) ∧
    s'.intervalAggregations = s.intervalAggregations ∧ s'.intervalsNeedingRecalculation = s.intervalsNeedingRecalculation ∧
    s'.hostStatus = s.hostStatus ∧ s'.intervalDuration = s.intervalDuration ∧ s'.maxIntervals = s.maxIntervals := by
  have hph := hr.phase
  have hinv := hr.inv hsort hdec (agreed h) (fun h0 => by
    rcases hph with p | p
    · exact absurd p.1 h0
    · exact p.2.2.2) hrange
  obtain ⟨l, h1, h2⟩ := Option.bind_eq_some_iff.1 (show (truncateAggs _ _).bind _ = some s' from hs)
  have hl := truncateAggs_ok hinv.series h1
  subst hl
  have hag : agreed h = s.intervalDuration := by
    rcases hph with p | p
    · rw [p.2.2.2, p.1]
    · exact p.2.2.2
  rw [← Option.some.inj h2]
  refine ⟨?_, rfl, rfl, rfl, rfl, rfl⟩
  intro k
  have e : i64 (s.intervalDuration * 5) = 5 * agreed h := by rw [← hag, i64_of_range (by omega) (by omega)]; omega
  have := get?_filter (m := s.hostAggregations) (fun k => decide ¬ subTime (now k) k.time > i64 (s.intervalDuration * 5)) k
  simp only at this ⊢
  rw [this, e]
  have := subTime_gt (t := now k) (u := k.time) (x := 5 * agreed h) (by omega) (by omega)
  by_cases hk : (now k).ns - k.time.ns > 5 * agreed h
  · simp [hk, this.2 hk]
  · simp only [decide_eq_true_eq, this, hk, not_false_eq_true, if_true, if_false]

/-- a case that meets the hypotheses: 310 s after the story began, the first interval is purged (two processes), the second is kept. -/
example : ∃ h s s', Runs sortAggs (init [bs "h", bs "i"]) h s ∧ Decoded h ∧ agreed h = 60000000000 ∧ step sortAggs s (.purge (fun _ => ⟨310000000000, 1⟩)) = some s' ∧
    s.hostAggregations.length = 3 ∧ s'.hostAggregations.length = 1 := by
  have key : (after (init [bs "h", bs "i"]) story).map (fun s => ((step sortAggs s (.purge (fun _ => ⟨310000000000, 1⟩))).map (·.hostAggregations.length),
      s.hostAggregations.length)) = some (some 1, 3) := by decide +kernel
  obtain ⟨s, h1, h2, h3, h4, h5⟩ := story_after
  rw [h1, Option.map_some, Option.some.injEq, Prod.mk.injEq] at key
  obtain ⟨s', h6, h7⟩ := Option.map_eq_some_iff.1 key.1
  exact ⟨_, s, s', h2, h4, h3, h6, key.2, h7⟩
