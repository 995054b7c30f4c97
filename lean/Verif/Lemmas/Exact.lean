import Verif.Lemmas.Segments
/-! An aggregation built from a list of emissions satisfies the exactness predicates of the specification. -/
open Spec

theorem aggOf_everywhere {P : AggMaps → List Emit → Prop} (h : ∀ es, P (mapsOf es) es) (s : Time) (es : List Emit) :
    Everywhere P (aggOf s es) es := by
  refine ⟨by rw [aggOf_maps]; exact h es, ?_⟩
  intro job
  rw [aggOf_jobs]
  split
  · rename_i h0
    split at h0
    · assumption
    · cases h0
  · rename_i ja h0
    split at h0
    · cases h0
    · cases h0
      rename_i hne
      exact ⟨hne, by rw [jobAggOf_maps]; exact h _⟩

theorem mapsOf_eventsExact (es : List Emit) : EventsExact (mapsOf es) es := mapsOf_events es

theorem mapsOf_gaugesExact (es : List Emit) : GaugesExact (mapsOf es) es := mapsOf_gauges es

theorem mapsOf_timersExact (es : List Emit) : TimersExact (mapsOf es) es := by
  intro ev
  rw [mapsOf_timers]
  by_cases h : timings ev es = []
  · simp [h]
  · simp only [h, if_false]
    exact ⟨h, timerOf_summarises _⟩

theorem addError_subset (ec : ErrorCounter) (e : Option Err) (x : Option Err) (h : x ∈ (ec.addError e).samples) :
    x = e ∨ x ∈ ec.samples := by
  unfold ErrorCounter.addError at h
  split at h
  · exact (List.mem_or_eq_of_mem_set h).symm
  · split at h
    · exact (List.mem_or_eq_of_mem_set h).symm
    · exact .inr h

theorem errCounterOf_subset (xs : List (Option Err)) (x : Option Err) (h : x ∈ (errCounterOf xs).samples) :
    x = none ∨ x ∈ xs := by
  induction xs using snocInduction with
  | nil =>
    left
    simp only [errCounterOf, List.foldl_nil, ErrorCounter.zero] at h
    exact List.eq_of_mem_replicate h
  | snoc l a ih =>
    rw [errCounterOf_snoc, (incrementAndAddError_eq _ _).1] at h
    rcases addError_subset _ _ _ h with h | h
    · right; simp [h]
    · rcases ih h with h | h
      · exact .inl h
      · right; simp [h]

theorem getErrorSamples_mem (ec : ErrorCounter) (e : Err) : e ∈ ec.getErrorSamples ↔ some e ∈ ec.samples := by
  simp [ErrorCounter.getErrorSamples]

theorem mapsOf_errsExact (es : List Emit) : ErrsExact (mapsOf es) es := by
  intro ev
  rw [mapsOf_errs]
  by_cases h : errs ev es = []
  · simp [h]
  · simp only [h, if_false]
    refine ⟨h, errCounterOf_count _, ?_, ?_, ?_⟩
    · unfold ErrorCounter.getErrorSamples
      exact (List.length_filterMap_le _ _).trans (by rw [errCounterOf_length])
    · intro e he
      rw [getErrorSamples_mem] at he
      rcases errCounterOf_subset _ _ he with h | h
      · cases h
      · exact h
    · intro xs hxs
      rw [hxs]
      exact (errCounterOf_ring xs).samplesOf

theorem jobAggOf_completions (es : List Emit) : CompletionsExact (jobAggOf es) es := by
  obtain ⟨h1, h2, h3, h4, h5⟩ := jobAggOf_status es
  exact ⟨h1, h2, h3, h4, h5, by rw [jobAggOf_timer]; exact timerOf_summarises _⟩

/-! ### totals -/

theorem sum_set {V : Type} (m : GoMap Str V) (k : Str) (v : V) (g : V → Int) :
    ((m.set k v).map (fun p => g p.2)).sum =
      (m.map (fun p => g p.2)).sum - ((m.get? k).map g).getD 0 + g v := by
  induction m with
  | nil => simp [GoMap.set]
  | cons p t ih =>
    obtain ⟨a, w⟩ := p
    unfold GoMap.set
    simp only [GoMap.get?_cons]
    split
    · simp; omega
    · simp only [List.map_cons, List.sum_cons, ih]; omega

/-- A quantity that grows by `δ e` (modulo 2^64) with every emission `e`. -/
structure Accumulates (g : AggMaps → Int) (δ : Emit → Int) : Prop where
  zero : g AggMaps.init = 0
  step : ∀ am e, i64 (g (am.applyE e)) = i64 (g am + δ e)

theorem JobAgg.applyE_maps (j : JobAgg) (e : Emit) : (j.applyE e).maps = j.maps.applyE e := by
  cases e <;> try rfl
  simp only [JobAgg.applyE, AggMaps.applyE, JobAgg.ingest]
  repeat' split
  all_goals rfl

theorem i64_congr {a b c : Int} (h : i64 a = i64 b) : i64 (a + c) = i64 (b + c) := by
  rw [← i64_add_i64_left, h, i64_add_i64_left]

theorem i64_congr_right {a b c : Int} (h : i64 a = i64 b) : i64 (c + a) = i64 (c + b) := by
  rw [← i64_add_i64_right, h, i64_add_i64_right]

theorem Accumulates.maps {g : AggMaps → Int} {δ : Emit → Int} (h : Accumulates g δ) (es : List Emit) :
    i64 (g (mapsOf es)) = i64 ((es.map δ).sum) := by
  induction es using snocInduction with
  | nil => simp [mapsOf, h.zero]
  | snoc l a ih =>
    rw [mapsOf_snoc, h.step, i64_congr ih]; simp

theorem Accumulates.jobs {g : AggMaps → Int} {δ : Emit → Int} (h : Accumulates g δ) (s : Time) (es : List Emit) :
    i64 (((aggOf s es).jobs.map (fun p => g p.2.maps)).sum) = i64 ((es.map δ).sum) := by
  induction es using snocInduction with
  | nil => simp [aggOf, IntAgg.new]
  | snoc l a ih =>
    rw [aggOf_snoc, IntAgg.apply_eq]
    simp only
    rw [sum_set (aggOf s l).jobs (jobOf a) _ (fun j => g j.maps)]
    simp only [JobAgg.applyE_maps]
    rw [i64_congr_right (h.step _ _)]
    have : (((aggOf s l).jobs.get? (jobOf a)).map (fun j => g j.maps)).getD 0 =
        g (GoMap.getD (aggOf s l).jobs (jobOf a) JobAgg.init).maps := by
      unfold GoMap.getD
      cases (aggOf s l).jobs.get? (jobOf a) with
      | none => exact h.zero.symm
      | some j => rfl
    rw [this]
    generalize g (GoMap.getD (aggOf s l).jobs (jobOf a) JobAgg.init).maps = q
    generalize hS : ((aggOf s l).jobs.map (fun p => g p.2.maps)).sum = S at *
    have : S - q + (q + δ a) = S + δ a := by omega
    rw [this, i64_congr ih]; simp

theorem Accumulates.total {g : AggMaps → Int} {δ : Emit → Int} (h : Accumulates g δ) (hg : ∀ es, i64 (g (mapsOf es)) = g (mapsOf es))
    (s : Time) (es : List Emit) :
    g (aggOf s es).maps = i64 (((aggOf s es).jobs.map (fun p => g p.2.maps)).sum) := by
  rw [h.jobs, aggOf_maps, ← h.maps, hg]

theorem additive_events (ev : Str) :
    Accumulates (fun am => (am.events.get? ev).getD 0) (fun | .event _ e => if e = ev then 1 else 0 | _ => 0) where
  zero := rfl
  step am e := by
    cases e <;> simp only [AggMaps.applyE, AggMaps.addErr, AggMaps.addTiming, AggMaps.setGauge, Int.add_zero]
    rename_i j e
    simp only [AggMaps.incEvent, GoMap.get?_set, GoMap.getD]
    by_cases h : ev = e
    · subst h; simp
    · simp [h, Ne.symm h]

theorem additive_errs (ev : Str) :
    Accumulates (fun am => ((am.eventErrs.get? ev).map (·.count)).getD 0)
      (fun | .eventErr _ e _ => if e = ev then 1 else 0 | _ => 0) where
  zero := rfl
  step am e := by
    cases e <;> simp only [AggMaps.applyE, AggMaps.incEvent, AggMaps.addTiming, AggMaps.setGauge, Int.add_zero]
    rename_i j e x
    simp only [AggMaps.addErr, GoMap.get?_set, GoMap.getD]
    by_cases h : ev = e
    · subst h; simp only [if_true, Option.map_some, Option.getD_some, (incrementAndAddError_eq _ _).2.2, i64_i64]
      cases am.eventErrs.get? ev <;> simp [ErrorCounter.zero]
    · simp [h, Ne.symm h]

theorem additive_timerCount (ev : Str) :
    Accumulates (fun am => ((am.timers.get? ev).map (·.count)).getD 0)
      (fun | .timing _ e _ => if e = ev then 1 else 0 | _ => 0) where
  zero := rfl
  step am e := by
    cases e <;> simp only [AggMaps.applyE, AggMaps.incEvent, AggMaps.addErr, AggMaps.setGauge, Int.add_zero]
    rename_i j e x
    simp only [AggMaps.addTiming, GoMap.get?_set, GoMap.getD]
    by_cases h : ev = e
    · subst h; simp only [if_true, Option.map_some, Option.getD_some, TimerAgg.ingest, i64_i64]
      cases am.timers.get? ev <;> simp [TimerAgg.zero]
    · simp [h, Ne.symm h]

theorem additive_timerSum (ev : Str) :
    Accumulates (fun am => ((am.timers.get? ev).map (·.nanosSum)).getD 0)
      (fun | .timing _ e n => if e = ev then n else 0 | _ => 0) where
  zero := rfl
  step am e := by
    cases e <;> simp only [AggMaps.applyE, AggMaps.incEvent, AggMaps.addErr, AggMaps.setGauge, Int.add_zero]
    rename_i j e x
    simp only [AggMaps.addTiming, GoMap.get?_set, GoMap.getD]
    by_cases h : ev = e
    · subst h; simp only [if_true, Option.map_some, Option.getD_some, TimerAgg.ingest, i64_i64]
      cases am.timers.get? ev <;> simp [TimerAgg.zero]
    · simp [h, Ne.symm h]

theorem range_events (ev : Str) (es : List Emit) :
    i64 (((mapsOf es).events.get? ev).getD 0) = ((mapsOf es).events.get? ev).getD 0 := by
  rw [mapsOf_events]; unfold counter; split <;> simp

theorem range_errs (ev : Str) (es : List Emit) :
    i64 ((((mapsOf es).eventErrs.get? ev).map (·.count)).getD 0) = (((mapsOf es).eventErrs.get? ev).map (·.count)).getD 0 := by
  rw [mapsOf_errs]; split
  · simp
  · simp [errCounterOf_count]

theorem range_timerCount (ev : Str) (es : List Emit) :
    i64 ((((mapsOf es).timers.get? ev).map (·.count)).getD 0) = (((mapsOf es).timers.get? ev).map (·.count)).getD 0 := by
  rw [mapsOf_timers]; split
  · simp
  · simp [timerOf_count]

theorem range_timerSum (ev : Str) (es : List Emit) :
    i64 ((((mapsOf es).timers.get? ev).map (·.nanosSum)).getD 0) = (((mapsOf es).timers.get? ev).map (·.nanosSum)).getD 0 := by
  rw [mapsOf_timers]; split
  · simp
  · simp [timerOf_sum]
