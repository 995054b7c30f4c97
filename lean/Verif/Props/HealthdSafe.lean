import Verif.Lemmas.HealthdRun
import Verif.Lemmas.Decoded
import Verif.Spec.Metrics
/-!
# healthd and what hosts answer (C46, C47)
-/
open Spec Healthd Unmarshal

/-! ## C46 -/

namespace Spec
/-- what `/health` of a gocraft/health process says: a positive interval duration and no null. -/
def Sane (r : PollResponse) : Prop :=
  Succeeded r → 0 < r.response.intervalDuration ∧ ∀ o ∈ r.response.aggs, ∃ rep, o = some rep ∧ rep.hasNil = false
end Spec

namespace Healthd

theorem truncateAggs_some {m : Int} (h : 0 ≤ m) (l : List IntAgg) : ∃ l', truncateAggs m l = some l' := by
  unfold truncateAggs
  split
  · rw [if_neg (by omega)]; exact ⟨_, rfl⟩
  · exact ⟨_, rfl⟩

structure Safe (s : State) : Prop where
  max : 0 ≤ s.maxIntervals
  reports : ∀ p ∈ s.hostAggregations, p.2.hasNil = false

theorem mem_set {K V : Type} [DecidableEq K] {m : GoMap K V} {k : K} {v : V} {p : K × V} (h : p ∈ m.set k v) : p = (k, v) ∨ p ∈ m := by
  induction m with
  | nil => simpa [GoMap.set] using h
  | cons x t ih =>
    unfold GoMap.set at h
    split at h
    · rcases List.mem_cons.1 h with h | h
      · exact .inl h
      · exact .inr (by simp [h])
    · rcases List.mem_cons.1 h with h | h
      · exact .inr (by simp [h])
      · rcases ih h with h | h
        · exact .inl h
        · exact .inr (by simp [h])

theorem Safe.storeOne {s : State} (h : Safe s) (r : PollResponse) {rep : Report} (hrep : rep.hasNil = false) :
    ∃ s', storeOne r s (some rep) = some s' ∧ Safe s' := by
  unfold Healthd.storeOne
  have : Safe { s with
      hostAggregations := s.hostAggregations.set ⟨rep.agg.start, r.response.instanceId, r.hostPort⟩ rep
      intervalsNeedingRecalculation := s.intervalsNeedingRecalculation.set rep.agg.start () } := by
    refine ⟨h.max, ?_⟩
    intro p hp
    rcases mem_set hp with h1 | h1
    · rw [h1]; exact hrep
    · exact h.reports p h1
  simp only
  cases s.hostAggregations.get? ⟨rep.agg.start, r.response.instanceId, r.hostPort⟩ with
  | none => exact ⟨_, rfl, this⟩
  | some e =>
    simp only
    split
    · exact ⟨_, rfl, h⟩
    · exact ⟨_, rfl, this⟩

theorem Safe.storeAll {s : State} (h : Safe s) (r : PollResponse) {l : List (Option Report)} (hl : ∀ o ∈ l, ∃ rep, o = some rep ∧ rep.hasNil = false) :
    ∃ s', storeAll r s l = some s' ∧ Safe s' := by
  induction l generalizing s with
  | nil => exact ⟨s, rfl, h⟩
  | cons o t ih =>
    obtain ⟨rep, rfl, hrep⟩ := hl o (by simp)
    obtain ⟨s1, h1, h2⟩ := h.storeOne r hrep
    obtain ⟨s2, h3, h4⟩ := ih h2 (fun o ho => hl o (by simp [ho]))
    refine ⟨s2, ?_, h4⟩
    unfold Healthd.storeAll at h3 ⊢
    rw [List.foldlM_cons, h1]
    exact h3

theorem Safe.consume {s : State} (h : Safe s) {r : PollResponse} (hr : Sane r) (n1 n2 : Time) :
    ∃ s', consumePollResponse n1 n2 s r = some s' ∧ Safe s' := by
  obtain ⟨e1, e2, e3, e4, e5⟩ := noteStatus_fields n1 n2 s r
  have hs : Safe (noteStatus n1 n2 s r) := ⟨by rw [e2]; exact h.max, by rw [e3]; exact h.reports⟩
  rw [consume_eq]
  by_cases hsuc : r.code = 200 ∧ r.err = none
  · obtain ⟨h1, h2⟩ := hr hsuc
    rw [if_pos hsuc]
    split
    · rw [if_neg (by omega)]
      exact Safe.storeAll (s := { noteStatus n1 n2 s r with
        intervalDuration := r.response.intervalDuration, maxIntervals := Int.tdiv retain r.response.intervalDuration })
        ⟨Int.tdiv_nonneg (by unfold retain; omega) (by omega), hs.reports⟩ r h2
    · split
      · exact ⟨_, rfl, hs⟩
      · exact hs.storeAll r h2
  · rw [if_neg hsuc]; exact ⟨_, rfl, hs⟩

theorem Safe.set {s : State} (h : Safe s) (sort : List IntAgg → List IntAgg) (a : IntAgg) : ∃ s', setAggregation sort s a = some s' ∧ Safe s' := by
  unfold setAggregation
  split
  · exact ⟨_, rfl, h.max, h.reports⟩
  · obtain ⟨l, hl⟩ := truncateAggs_some h.max (sort (s.intervalAggregations ++ [a]))
    rw [hl]
    exact ⟨_, rfl, h.max, h.reports⟩

theorem merge_some {l : List Report} (h : ∀ r ∈ l, r.hasNil = false) (a : IntAgg) : ∃ b, l.foldlM mergeReport a = some b := by
  induction l generalizing a with
  | nil => exact ⟨a, rfl⟩
  | cons r t ih =>
    obtain ⟨b, hb⟩ := ih (fun r hr => h r (by simp [hr])) (a.merge r.agg)
    refine ⟨b, ?_⟩
    rw [List.foldlM_cons]
    have : mergeReport a r = some (a.merge r.agg) := by unfold mergeReport; rw [h r (by simp)]; rfl
    rw [this]
    exact hb

theorem Safe.recalculateOne {s : State} (h : Safe s) (sort : List IntAgg → List IntAgg) {entries : Time → List (Key × Report)} (k : Time)
    (he : ∀ p ∈ entries k, p.2.hasNil = false) : ∃ s', recalculateOne sort entries s k = some s' ∧ Safe s' := by
  unfold Healthd.recalculateOne
  obtain ⟨b, hb⟩ := merge_some (l := ((entries k).filter (fun p => p.1.time = k)).map (·.2)) (by
    intro r hr
    obtain ⟨p, h1, rfl⟩ := List.mem_map.1 hr
    exact he p (List.mem_of_mem_filter h1)) (IntAgg.new k)
  simp only [hb]
  exact h.set sort b

theorem Safe.recalculate {s : State} (h : Safe s) (sort : List IntAgg → List IntAgg) {ks : List Time} {entries : Time → List (Key × Report)}
    (he : ∀ k, ∀ p ∈ entries k, p.2.hasNil = false) : ∃ s', recalculateIntervals sort ks entries s = some s' ∧ Safe s' := by
  have : ∃ s', ks.foldlM (Healthd.recalculateOne sort entries) s = some s' ∧ Safe s' := by
    induction ks generalizing s with
    | nil => exact ⟨s, rfl, h⟩
    | cons k t ih =>
      obtain ⟨s1, h1, h2⟩ := h.recalculateOne sort k (he k)
      obtain ⟨s2, h3, h4⟩ := ih h2
      refine ⟨s2, ?_, h4⟩
      rw [List.foldlM_cons, h1]
      exact h3
  obtain ⟨s', h1, h2⟩ := this
  unfold recalculateIntervals
  simp only [h1]
  exact ⟨_, rfl, h2.max, h2.reports⟩

theorem Safe.purge {s : State} (h : Safe s) (now : Key → Time) : ∃ s', Healthd.purge now s = some s' ∧ Safe s' := by
  unfold Healthd.purge
  obtain ⟨l, hl⟩ := truncateAggs_some h.max s.intervalAggregations
  simp only [hl]
  exact ⟨_, rfl, h.max, fun p hp => h.reports p (List.mem_of_mem_filter hp)⟩

theorem Safe.step {s : State} (h : Safe s) (sort : List IntAgg → List IntAgg) {op : Op} (hv : op.Valid s) (hop : ∀ r n1 n2, op = .response r n1 n2 → Sane r) :
    ∃ s', Healthd.step sort s op = some s' ∧ Safe s' := by
  cases op with
  | response r n1 n2 => exact h.consume (hop r n1 n2 rfl) n1 n2
  | purge now => exact h.purge now
  | recalculate ks entries => exact h.recalculate sort (fun k p hp => h.reports p ((hv.2 k).mem_iff.1 hp))

end Healthd

/-- C46.  Partial: as long as the hosts answer with a positive interval duration and without nulls, nothing makes the loop panic, however responses,
purges and recalculations follow each other; what fails to download, to parse or to have status 200 may be anything. (See `C46_false`.) -/
theorem C46_partial {sort : List IntAgg → List IntAgg} {hosts : List Str} {h : List Op} {s : State} (hr : Runs sort (init hosts) h s)
    (hsane : ∀ r n1 n2, Op.response r n1 n2 ∈ h → Sane r) {op : Op} (hv : op.Valid s) (hop : ∀ r n1 n2, op = .response r n1 n2 → Sane r) :
    ∃ s', step sort s op = some s' := by
  have : Safe s := by
    clear hv hop op
    induction hr with
    | nil => exact ⟨by simp [init], by simp [init]⟩
    | @snoc ops s1 s2 op' hr hv' hs ih =>
      have h1 := ih (fun r n1 n2 hm => hsane r n1 n2 (by simp [hm]))
      obtain ⟨s3, h2, h3⟩ := h1.step sort hv' (fun r n1 n2 e => hsane r n1 n2 (by simp [e]))
      rw [h2] at hs
      rw [← Option.some.inj hs]
      exact h3
  obtain ⟨s', h1, _⟩ := this.step sort hv hop
  exact ⟨s', h1⟩

/-- cases that meet the hypotheses: three responses (one of them bad), a purge and a recalculation. -/
example : (after (init [bs "h", bs "i"]) [
    got "h" 0 "{\"instance_id\":\"a\",\"interval_duration\":60000000000,\"aggregations\":[{\"interval_start\":\"0001-01-01T00:00:00Z\",\"serial_number\":1,\"events\":{\"e\":3}}]}",
    got "i" 1 "{\"instance_id\":\"b\",\"interval_duration\":60000000000,\"aggregations\":[{\"interval_start\":\"0001-01-01T00:00:00Z\",\"serial_number\":1,\"events\":{\"e\":4}}]}",
    got "i" 2 "oops", .recalculate, .purge (fun _ => ⟨400000000000, 1⟩)]).map (fun s => (s.intervalAggregations.map (·.maps.events), s.hostAggregations.length)) =
    some ([[(bs "e", 7)]], 0) := by
  decide +kernel

/-- C46 is false: an answer `{}` (or null, or any JSON object without interval_duration) crashes healthd … -/
theorem C46_false : step sortAggs (init [bs "h"]) (.response (poll (fun _ => 0) 0 (bs "h") ⟨9, 1⟩ 5 ⟨[], 0, []⟩ (bs "json error")
    (.answer 200 (bs "{}") none)) ⟨10, 1⟩ ⟨11, 1⟩) = none := by decide +kernel

/-- … and so does a null in the list of intervals … -/
theorem C46_false_null : after (init [bs "h"]) [got "h" 0 "{\"interval_duration\":60000000000,\"aggregations\":[null]}"] = none := by decide +kernel

/-- … or a null timer, at the next recalculation … -/
theorem C46_false_timer :
    let c := got "h" 0 "{\"interval_duration\":60000000000,\"aggregations\":[{\"timers\":{\"t\":null}}]}"
    (after (init [bs "h"]) [c]).isSome = true ∧ after (init [bs "h"]) [c, .recalculate] = none := by decide +kernel

/-- … or a negative interval duration. -/
theorem C46_false_negative :
    let c := got "h" 0 "{\"interval_duration\":-60000000000,\"aggregations\":[{}]}"
    (after (init [bs "h"]) [c]).isSome = true ∧ after (init [bs "h"]) [c, .recalculate] = none := by decide +kernel

/-! ## C47 -/

/-- C47.  Partial: the same text of a start time, in two responses polled at any times, becomes the same map key, if its UTC offset is 0, the one of
healthd's local zone, or a whole number of hours from -12 to +14; and which key, if the zone is written as Go writes it. (See `C47_false`.) -/
theorem C47_partial (lo : Int → Int) (text : Str) {ns off : Int} (h : readTime text = some (ns, off))
    (hz : off = 0 ∨ off = lo ns ∨ (3600 ∣ off ∧ -43200 ≤ off ∧ off ≤ 50400)) :
    ∃ loc, (∀ fresh t val, decTime lo fresh t (.str text val) = some ⟨ns, loc⟩) ∧ ((off = 0 ↔ text.getLast? = some 90) → zoneId lo ns off = some loc) := by
  have key : ∀ fresh t val, decTime lo fresh t (.str text val) = some ⟨ns, locOf lo fresh (decide (text.getLast? = some 90)) ns off⟩ := by
    intro fresh t val
    show (readTime text).map _ = _
    rw [h]
    rfl
  simp only [key]
  unfold locOf zoneId
  by_cases hZ : text.getLast? = some 90
  · exact ⟨0, by simp [hZ], fun e => by rw [if_pos (e.2 hZ)]⟩
  · simp only [hZ, decide_false, Bool.false_eq_true, if_false, iff_false]
    by_cases h1 : off = lo ns
    · exact ⟨1, by simp [h1], fun e => by rw [if_neg e, if_pos h1]⟩
    · have h2 : 3600 ∣ off ∧ -43200 ≤ off ∧ off ≤ 50400 := by
        rcases hz with rfl | hz | hz
        · exact ⟨by omega, by omega, by omega⟩
        · exact absurd hz h1
        · exact hz
      refine ⟨2 + (off / 3600 + 12).toNat, ?_, fun e => ?_⟩
      · intro fresh t val
        rw [if_neg (Ne.symm h1), if_pos ⟨Int.emod_eq_zero_of_dvd h2.1, h2.2⟩]
      · rw [if_neg e, if_neg h1, if_pos h2]
        congr 1
        omega

/-- Two ways to write the same instant are two keys: `+00:00` is not UTC to Go, but a zone of its own, or the local one. -/
theorem C47_zero : decTime (fun _ => 3600) 0 ⟨0, 0⟩ (.str (bs "2011-09-09T23:36:13Z") []) = some ⟨63451208173000000000, 0⟩ ∧
    decTime (fun _ => 3600) 0 ⟨0, 0⟩ (.str (bs "2011-09-09T23:36:13+00:00") []) = some ⟨63451208173000000000, 14⟩ ∧
    decTime (fun _ => 0) 0 ⟨0, 0⟩ (.str (bs "2011-09-09T23:36:13+00:00") []) = some ⟨63451208173000000000, 1⟩ := by decide +kernel

/-- cases that meet the hypotheses. -/
example : readTime (bs "2011-09-09T23:36:13+02:00") = some (63451200973000000000, 7200) ∧ zoneId (fun _ => 0) 63451200973000000000 7200 = some 16 ∧
    zoneId (fun _ => 19800) 63451200973000000000 19800 = some 1 := by decide +kernel

/-- C47 is false: a host in India (+05:30) that reports an interval, and later an update of it, appears with that interval twice, and the event is counted
twice. -/
theorem C47_false : ∃ (h : List Op) (s : State) (t1 t2 : Time) (a b : IntAgg), Runs sortAggs (init [bs "h"]) h s ∧
    s.intervalAggregations = [a, b] ∧ a.start = t1 ∧ b.start = t2 ∧ t1.ns = t2.ns ∧ value a (.event (bs "e")) = some 1 ∧ value b (.event (bs "e")) = some 2 := by
  have key : (after (init [bs "h"]) [
      got "h" 0 "{\"instance_id\":\"a\",\"interval_duration\":60000000000,\"aggregations\":[{\"interval_start\":\"2011-09-09T23:36:00+05:30\",\"serial_number\":1,\"events\":{\"e\":1}}]}",
      .recalculate,
      got "h" 1 "{\"instance_id\":\"a\",\"interval_duration\":60000000000,\"aggregations\":[{\"interval_start\":\"2011-09-09T23:36:00+05:30\",\"serial_number\":2,\"events\":{\"e\":2}}]}",
      .recalculate]).map (fun s => s.intervalAggregations.map (fun a => (a.start.ns, value a (.event (bs "e"))))) =
      some [(63451188360000000000, some 1), (63451188360000000000, some 2)] := by decide +kernel
  obtain ⟨s, h1, h2⟩ := Option.map_eq_some_iff.1 key
  obtain ⟨a, l1, e1, ha, h3⟩ := List.map_eq_cons_iff.1 h2
  obtain ⟨b, l2, rfl, hb, h4⟩ := List.map_eq_cons_iff.1 h3
  have : l2 = [] := List.map_eq_nil_iff.1 h4
  subst this
  simp only [Prod.mk.injEq] at ha hb
  exact ⟨_, s, a.start, b.start, a, b, after_runs h1, e1, rfl, rfl, by rw [ha.1, hb.1], ha.2, hb.2⟩
