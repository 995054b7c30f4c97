import Verif.Props.HealthdSafe
/-!
# C46: exactly when healthd crashes
-/
open Spec Healthd Unmarshal

namespace Spec
/-- the interval duration that healthd took is negative, and not more than two hours below zero. -/
def NegativeDuration (h : List Op) : Prop := -retain ≤ agreed h ∧ agreed h < 0

/-- what kills healthd after the history `h`, when it has the reports and the intervals to recalculate of `s`. -/
def Kills (h : List Op) (s : State) : Op → Prop
  | .response r _ _ => Succeeded r ∧ ((agreed h = 0 ∧ r.response.intervalDuration = 0) ∨
      ((agreed h = 0 ∨ agreed h = r.response.intervalDuration) ∧ none ∈ r.response.aggs))
  | .purge _ => NegativeDuration h
  | .recalculate _ _ => ∃ t ∈ s.intervalsNeedingRecalculation.keys, NegativeDuration h ∨ ∃ p ∈ s.hostAggregations, p.1.time = t ∧ p.2.hasNil = true
end Spec

namespace Healthd

theorem storeOne_some (r : PollResponse) (s : State) (rep : Report) : ∃ s', storeOne r s (some rep) = some s' := by
  unfold storeOne
  simp only
  split
  · exact ⟨_, rfl⟩
  · split <;> exact ⟨_, rfl⟩

theorem storeAll_none (r : PollResponse) : ∀ (l : List (Option Report)) (s : State), storeAll r s l = none ↔ none ∈ l
  | [], s => by simp [storeAll]
  | none :: t, s => by simp [storeAll, storeOne]
  | some rep :: t, s => by
    obtain ⟨s1, h1⟩ := storeOne_some r s rep
    have := storeAll_none r t s1
    unfold storeAll at this ⊢
    rw [List.foldlM_cons, h1]
    simpa using this

theorem truncateAggs_none (m : Int) (l : List IntAgg) : truncateAggs m l = none ↔ m < 0 := by
  unfold truncateAggs
  split
  · split
    · simp; omega
    · simp; omega
  · simp; omega

theorem tdiv_neg (d : Int) : Int.tdiv retain d < 0 ↔ -retain ≤ d ∧ d < 0 := by
  have hr : (0 : Int) < retain := by decide
  rcases lt_trichotomy d 0 with h | h | h
  · obtain ⟨e, rfl⟩ : ∃ e, d = -e := ⟨-d, by omega⟩
    have he : 0 < e := by omega
    rw [Int.tdiv_neg, Int.tdiv_eq_ediv_of_nonneg (by omega)]
    have h1 : 0 < retain / e ↔ e ≤ retain := by
      rw [Int.lt_iff_add_one_le, zero_add, Int.le_ediv_iff_mul_le he, one_mul]
    constructor
    · intro h2; have := h1.1 (by omega); omega
    · rintro ⟨h2, _⟩; have := h1.2 (by omega); omega
  · subst h; simp
  · have := Int.tdiv_nonneg (a := retain) (b := d) (by omega) (by omega)
    constructor <;> intro <;> omega

theorem mergeAll_none : ∀ (l : List Report) (a : IntAgg), l.foldlM mergeReport a = none ↔ ∃ r ∈ l, r.hasNil = true
  | [], a => by simp
  | r :: t, a => by
    rw [List.foldlM_cons]
    by_cases h : r.hasNil = true
    · simp [mergeReport, h]
    · have e : mergeReport a r = some (a.merge r.agg) := by simp [mergeReport, h]
      rw [e]
      have := mergeAll_none t (a.merge r.agg)
      simp only [Option.bind_eq_bind, Option.bind_some, this, List.mem_cons, exists_eq_or_imp, h, Bool.false_eq_true, false_or]

/-- a reachable state with negative `maxIntervals` shows nothing. -/
theorem Runs.shows_nothing {sort : List IntAgg → List IntAgg} {hosts : List Str} {h : List Op} {s : State} (hr : Runs sort (init hosts) h s) :
    (s.intervalDuration = 0 → s.intervalsNeedingRecalculation = []) ∧ (s.intervalDuration = 0 ∨ s.maxIntervals < 0 → s.intervalAggregations = []) := by
  induction hr with
  | nil => exact ⟨fun _ => rfl, fun _ => rfl⟩
  | @snoc ops s1 s2 op hr hv hs ih =>
    cases op with
    | response r n1 n2 =>
      have hs : consumePollResponse n1 n2 s1 r = some s2 := hs
      obtain ⟨e1, e2, e3, e4, e5⟩ := noteStatus_fields n1 n2 s1 r
      rw [consume_eq] at hs
      split at hs
      · split at hs
        · next h0 =>
          split at hs
          · cases hs
          · next hne =>
            obtain ⟨f1, f2, _, f3⟩ := storeAll_fields hs
            simp only at f1 f2 f3
            refine ⟨fun h => absurd (f1.symm.trans h) hne, fun _ => ?_⟩
            rw [f3, e5]
            exact ih.2 (.inl (by rw [← e1]; exact h0))
        · next h0 =>
          split at hs
          · cases hs
            rw [e1, e2, e4, e5]
            exact ih
          · obtain ⟨f1, f2, _, f3⟩ := storeAll_fields hs
            refine ⟨fun h => absurd (f1.symm.trans h) h0, fun h => ?_⟩
            rw [f1, f2, e1, e2] at h
            rw [f3, e5]
            exact ih.2 h
      · cases hs
        rw [e1, e2, e4, e5]
        exact ih
    | purge now =>
      have hs : Healthd.purge now s1 = some s2 := hs
      unfold Healthd.purge at hs
      obtain ⟨l, h1, h2⟩ := Option.bind_eq_some_iff.1 hs
      cases h2
      refine ⟨ih.1, fun h => ?_⟩
      have := ih.2 h
      simp only
      rw [this] at h1
      unfold truncateAggs at h1
      split at h1
      · split at h1
        · cases h1
        · simpa using (Option.some.inj h1).symm
      · exact (Option.some.inj h1).symm
    | recalculate ks entries =>
      have hs : recalculateIntervals sort ks entries s1 = some s2 := hs
      unfold recalculateIntervals at hs
      obtain ⟨s3, h1, h2⟩ := Option.bind_eq_some_iff.1 hs
      cases h2
      refine ⟨fun _ => rfl, ?_⟩
      simp only
      intro h
      have hz : ks = [] → s3 = s1 := by rintro rfl; cases h1; rfl
      cases ks with
      | nil => rw [hz rfl] at h ⊢; exact ih.2 h
      | cons k t =>
        obtain ⟨a1, a2, _, _⟩ := recalculate_fields h1
        rw [a1, a2] at h
        have h0 := ih.2 h
        exfalso
        rcases h with h | h
        · have := hv.1
          rw [ih.1 h] at this
          simp [GoMap.keys] at this
        · rw [List.foldlM_cons] at h1
          obtain ⟨s4, h3, _⟩ := Option.bind_eq_some_iff.1 h1
          unfold recalculateOne at h3
          obtain ⟨a, _, h4⟩ := Option.bind_eq_some_iff.1 h3
          unfold setAggregation at h4
          rw [h0] at h4
          simp only [replaceAgg] at h4
          rw [(truncateAggs_none _ _).2 h] at h4
          cases h4

theorem recalculateOne_eq (sort : List IntAgg → List IntAgg) (entries : Time → List (Key × Report)) (s : State) (k : Time) : recalculateOne sort entries s k =
    ((((entries k).filter (fun p => p.1.time = k)).map (·.2)).foldlM mergeReport (IntAgg.new k)).bind (setAggregation sort s) := rfl

theorem recalculateOne_none {sort : List IntAgg → List IntAgg} {entries : Time → List (Key × Report)} {s : State} (hm : 0 ≤ s.maxIntervals) (k : Time) :
    recalculateOne sort entries s k = none ↔ ∃ p ∈ entries k, p.1.time = k ∧ p.2.hasNil = true := by
  rw [recalculateOne_eq]
  have key := mergeAll_none (((entries k).filter (fun p => p.1.time = k)).map (·.2)) (IntAgg.new k)
  have e : (∃ r ∈ ((entries k).filter (fun p => p.1.time = k)).map (·.2), r.hasNil = true) ↔ ∃ p ∈ entries k, p.1.time = k ∧ p.2.hasNil = true := by
    constructor
    · rintro ⟨r, hr, hn⟩
      obtain ⟨p, hp, rfl⟩ := List.mem_map.1 hr
      obtain ⟨h1, h2⟩ := List.mem_filter.1 hp
      exact ⟨p, h1, by simpa using h2, hn⟩
    · rintro ⟨p, h1, h2, h3⟩
      exact ⟨p.2, List.mem_map_of_mem (List.mem_filter.2 ⟨h1, by simpa using h2⟩), h3⟩
  rw [e] at key
  rw [← key]
  cases hf : (((entries k).filter (fun p => p.1.time = k)).map (·.2)).foldlM mergeReport (IntAgg.new k) with
  | none => simp
  | some b =>
    simp only [Option.bind_some, reduceCtorEq, iff_false]
    unfold setAggregation
    split
    · simp
    · rw [Option.map_eq_none_iff, truncateAggs_none]; omega

theorem recalculates_none {sort : List IntAgg → List IntAgg} {entries : Time → List (Key × Report)} : ∀ (ks : List Time) {s : State}, 0 ≤ s.maxIntervals →
    (ks.foldlM (recalculateOne sort entries) s = none ↔ ∃ k ∈ ks, ∃ p ∈ entries k, p.1.time = k ∧ p.2.hasNil = true)
  | [], s, _ => by simp
  | k :: t, s, hm => by
    rw [List.foldlM_cons]
    cases h1 : recalculateOne sort entries s k with
    | none =>
      have := (recalculateOne_none hm k).1 h1
      simp only [Option.bind_eq_bind, Option.bind_none, true_iff]
      exact ⟨k, by simp, this⟩
    | some s1 =>
      have h2 : ¬ ∃ p ∈ entries k, p.1.time = k ∧ p.2.hasNil = true := by
        rw [← recalculateOne_none (sort := sort) hm k, h1]; simp
      have h3 : s1.maxIntervals = s.maxIntervals := (recalculate_fields (sort := sort) (en := entries) (l := [k]) (s := s) (s' := s1) (by simp [h1])).2.1
      have := recalculates_none (sort := sort) (entries := entries) t (s := s1) (by omega)
      simp only [Option.bind_eq_bind, Option.bind_some, this, List.mem_cons, exists_eq_or_imp]
      constructor
      · exact .inr
      · rintro (h | h)
        · exact absurd h h2
        · exact h

end Healthd

/-- C46, exactly when healthd crashes: a successful answer has the interval duration 0 (if it is the first) or a null in its list of intervals (unless it is dropped for another
interval duration); or the interval duration taken over is negative (not below -2 hours), which kills at the next purge or recalculation; or a report with a null inside is
to be merged.  Nothing else does. -/
theorem C46_iff {sort : List IntAgg → List IntAgg} {hosts : List Str} {h : List Op} {s : State} (hr : Runs sort (init hosts) h s) {op : Op} (hv : op.Valid s) :
    step sort s op = none ↔ Kills h s op := by
  have hagree : agreed h = s.intervalDuration := by
    rcases hr.phase with ⟨h1, _, _, h2⟩ | ⟨_, _, _, h2⟩
    · rw [h1, h2]
    · exact h2
  have hneg : s.maxIntervals < 0 ↔ NegativeDuration h := by
    unfold NegativeDuration
    rw [hagree]
    rcases hr.phase with ⟨h1, h2, _, _⟩ | ⟨_, h2, _, _⟩
    · rw [h1, h2]; simp
    · rw [h2, tdiv_neg]
  cases op with
  | response r n1 n2 =>
    show consumePollResponse n1 n2 s r = none ↔ _
    obtain ⟨e1, _⟩ := noteStatus_fields n1 n2 s r
    rw [consume_eq, e1]
    unfold Kills Succeeded
    rw [hagree]
    by_cases hsuc : r.code = 200 ∧ r.err = none
    · rw [if_pos hsuc]
      by_cases h0 : s.intervalDuration = 0
      · rw [if_pos h0]
        by_cases hz : r.response.intervalDuration = 0
        · rw [if_pos hz]; simp [hsuc, h0, hz]
        · rw [if_neg hz, storeAll_none]; simp [hsuc, h0, hz]
      · rw [if_neg h0]
        by_cases hd : s.intervalDuration = r.response.intervalDuration
        · rw [if_neg (by simpa using hd), storeAll_none]
          simp only [hsuc, h0, hd, true_and, false_and, false_or, and_self, or_true]
          rw [hd] at h0
          simp [h0]
        · rw [if_pos hd]; simp [h0, hd]
    · rw [if_neg hsuc]; simp only [reduceCtorEq, false_iff, not_and]; exact fun h => absurd h hsuc
  | purge now =>
    show Healthd.purge now s = none ↔ _
    unfold Healthd.purge Kills
    rw [← hneg, ← truncateAggs_none s.maxIntervals s.intervalAggregations]
    cases truncateAggs s.maxIntervals s.intervalAggregations <;> simp
  | recalculate ks entries =>
    show recalculateIntervals sort ks entries s = none ↔ _
    have e : recalculateIntervals sort ks entries s = none ↔ ks.foldlM (recalculateOne sort entries) s = none := by
      unfold recalculateIntervals
      cases ks.foldlM (recalculateOne sort entries) s <;> simp
    rw [e]
    unfold Kills
    rw [← hneg]
    have hmem : ∀ t, t ∈ s.intervalsNeedingRecalculation.keys ↔ t ∈ ks := fun t => hv.1.mem_iff.symm
    have hent : ∀ t p, p ∈ s.hostAggregations ↔ p ∈ entries t := fun t p => (hv.2 t).mem_iff.symm
    by_cases hm : s.maxIntervals < 0
    · have h0 := hr.shows_nothing.2 (.inr hm)
      cases ks with
      | nil => simp [hmem]
      | cons k t =>
        constructor
        · intro _; exact ⟨k, (hmem k).2 (by simp), .inl hm⟩
        · intro _
          rw [List.foldlM_cons]
          have : recalculateOne sort entries s k = none := by
            rw [recalculateOne_eq]
            cases (((entries k).filter (fun p => p.1.time = k)).map (·.2)).foldlM mergeReport (IntAgg.new k) with
            | none => rfl
            | some b =>
              rw [Option.bind_some]
              unfold setAggregation
              rw [h0]
              simp only [replaceAgg]
              rw [(truncateAggs_none _ _).2 hm]
              rfl
          rw [this]
          rfl
    · rw [recalculates_none ks (by omega)]
      simp only [hmem, hm, false_or]
      constructor
      · rintro ⟨k, hk, p, hp, h1⟩; exact ⟨k, hk, p, (hent k p).2 hp, h1⟩
      · rintro ⟨k, hk, p, hp, h1⟩; exact ⟨k, hk, p, (hent k p).1 hp, h1⟩

/-- each way to crash can be had; a negative duration below -2 hours is harmless. -/
example : (after (init [bs "h"]) [got "h" 0 "{\"interval_duration\":-7200000000000}", .purge (fun _ => ⟨0, 1⟩)] = none) ∧
    (after (init [bs "h"]) [got "h" 0 "{\"interval_duration\":-7200000000001,\"aggregations\":[{}]}", .recalculate, .purge (fun _ => ⟨0, 1⟩)]).isSome = true ∧
    (after (init [bs "h"]) [got "h" 0 "{\"interval_duration\":5,\"aggregations\":[]}", got "h" 1 "{\"interval_duration\":6,\"aggregations\":[null]}"]).isSome = true ∧
    after (init [bs "h"]) [got "h" 0 "{\"interval_duration\":5,\"aggregations\":[]}", got "h" 1 "{\"interval_duration\":5,\"aggregations\":[null]}"] = none ∧
    (after (init [bs "h"]) [got "h" 0 "{\"interval_duration\":5,\"aggregations\":[]}", got "h" 1 "{}"]).isSome = true := by
  decide +kernel
