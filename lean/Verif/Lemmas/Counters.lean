import Verif.Lemmas.Merge
/-! Every counter of an aggregation is what the specification expects. -/
open Spec

theorem job_apply (ia : IntAgg) (e : Emit) (j : Str) :
    (ia.apply e).jobs.get? j =
      if j = jobOf e then some ((ia.jobs.getD (jobOf e) JobAgg.init).applyE e) else ia.jobs.get? j := by
  rw [IntAgg.apply_eq]; simp only [GoMap.get?_set]

theorem JobAgg.applyE_events (ja : JobAgg) (e : Emit) (ev : Str) :
    (ja.applyE e).maps.events.get? ev =
      match e with
      | .event _ x => if x = ev then some (i64 ((ja.maps.events.get? ev).getD 0 + 1)) else ja.maps.events.get? ev
      | _ => ja.maps.events.get? ev := by
  rw [JobAgg.applyE_maps]
  cases e <;> simp only [AggMaps.applyE, AggMaps.incEvent, AggMaps.addErr, AggMaps.addTiming, AggMaps.setGauge]
  rename_i x
  rw [GoMap.get?_set]
  by_cases h : x = ev
  · subst h; simp [GoMap.getD]
  · simp [h, Ne.symm h]

theorem maps_events (am : AggMaps) (e : Emit) (ev : Str) :
    (am.applyE e).events.get? ev =
      match e with
      | .event _ x => if x = ev then some (i64 ((am.events.get? ev).getD 0 + 1)) else am.events.get? ev
      | _ => am.events.get? ev := by
  cases e <;> simp only [AggMaps.applyE, AggMaps.incEvent, AggMaps.addErr, AggMaps.addTiming, AggMaps.setGauge]
  rename_i x
  rw [GoMap.get?_set]
  by_cases h : x = ev
  · subst h; simp [GoMap.getD]
  · simp [h, Ne.symm h]

theorem maps_errCount (am : AggMaps) (e : Emit) (ev : Str) :
    ((am.applyE e).eventErrs.get? ev).map (·.count) =
      match e with
      | .eventErr _ x _ => if x = ev then some (i64 ((((am.eventErrs.get? ev).map (·.count)).getD 0) + 1))
          else (am.eventErrs.get? ev).map (·.count)
      | _ => (am.eventErrs.get? ev).map (·.count) := by
  cases e <;> simp only [AggMaps.applyE, AggMaps.incEvent, AggMaps.addErr, AggMaps.addTiming, AggMaps.setGauge]
  rename_i x y
  rw [GoMap.get?_set]
  by_cases h : x = ev
  · subst h
    simp only [if_true, Option.map_some, (incrementAndAddError_eq _ _).2.2, GoMap.getD]
    cases am.eventErrs.get? x <;> simp [ErrorCounter.zero]
  · simp [h, Ne.symm h]

theorem maps_timerCount (am : AggMaps) (e : Emit) (ev : Str) :
    ((am.applyE e).timers.get? ev).map (·.count) =
      match e with
      | .timing _ x _ => if x = ev then some (i64 ((((am.timers.get? ev).map (·.count)).getD 0) + 1))
          else (am.timers.get? ev).map (·.count)
      | _ => (am.timers.get? ev).map (·.count) := by
  cases e <;> simp only [AggMaps.applyE, AggMaps.incEvent, AggMaps.addErr, AggMaps.addTiming, AggMaps.setGauge]
  rename_i x y
  rw [GoMap.get?_set]
  by_cases h : x = ev
  · subst h
    simp only [if_true, Option.map_some, TimerAgg.ingest, GoMap.getD]
    cases am.timers.get? x <;> simp [TimerAgg.zero]
  · simp [h, Ne.symm h]

theorem maps_timerSum (am : AggMaps) (e : Emit) (ev : Str) :
    ((am.applyE e).timers.get? ev).map (·.nanosSum) =
      match e with
      | .timing _ x n => if x = ev then some (i64 ((((am.timers.get? ev).map (·.nanosSum)).getD 0) + n))
          else (am.timers.get? ev).map (·.nanosSum)
      | _ => (am.timers.get? ev).map (·.nanosSum) := by
  cases e <;> simp only [AggMaps.applyE, AggMaps.incEvent, AggMaps.addErr, AggMaps.addTiming, AggMaps.setGauge]
  rename_i x y
  rw [GoMap.get?_set]
  by_cases h : x = ev
  · subst h
    simp only [if_true, Option.map_some, TimerAgg.ingest, GoMap.getD]
    cases am.timers.get? x <;> simp [TimerAgg.zero]
  · simp [h, Ne.symm h]

/-- step of a counter: unchanged when there is no contribution, increased (modulo 2^64) otherwise. -/
def Steps (old new : Option Int) (x : Option Int) : Prop :=
  match x with
  | none => new = old
  | some δ => (∃ y, new = some y ∧ y = i64 (old.getD 0 + δ)) ∨ (δ = 0 ∧ (new = old ∧ old.isSome ∨ old = none ∧ new = some 0))

theorem steps_maps {f : AggMaps → Option Int} {ia : IntAgg} {e : Emit} {x : Option Int}
    (h : Steps (f ia.maps) (f (ia.maps.applyE e)) x) : Steps (f ia.maps) (f (ia.apply e).maps) x := by
  rw [IntAgg.apply_eq]; exact h

theorem steps_jobMaps {f : AggMaps → Option Int} {ia : IntAgg} {e : Emit} {x : Option Int} (j : Str)
    (h0 : f AggMaps.init = none) (h : ∀ am, Steps (f am) (f (am.applyE e)) x) :
    Steps ((ia.jobs.get? j).bind (fun ja => f ja.maps)) (((ia.apply e).jobs.get? j).bind (fun ja => f ja.maps))
      (if jobOf e = j then x else none) := by
  rw [job_apply]
  by_cases hj : j = jobOf e
  · subst hj
    simp only [if_true, Option.bind_some, JobAgg.applyE_maps, GoMap.getD]
    cases hg : ia.jobs.get? (jobOf e) with
    | none =>
      have := h AggMaps.init
      rw [h0] at this
      exact this
    | some ja => exact h ja.maps
  · rw [if_neg hj, if_neg (Ne.symm hj)]
    rfl

theorem steps_job {f : JobAgg → Int} {ia : IntAgg} {e : Emit} {δ : Int} (j : Str)
    (h0 : f JobAgg.init = 0) (h : ∀ ja : JobAgg, f (ja.applyE e) = i64 (f ja + δ) ∨ δ = 0 ∧ f (ja.applyE e) = f ja) :
    Steps ((ia.jobs.get? j).map f) (((ia.apply e).jobs.get? j).map f) (if jobOf e = j then some δ else none) := by
  rw [job_apply]
  by_cases hj : j = jobOf e
  · subst hj
    simp only [if_true, Option.map_some, GoMap.getD]
    cases hg : ia.jobs.get? (jobOf e) with
    | none =>
      rcases h JobAgg.init with h | ⟨h1, h2⟩
      · left; exact ⟨_, rfl, by rw [Option.getD_none]; simp only [Option.map_none, Option.getD_none]; rw [h, h0]⟩
      · right; refine ⟨h1, .inr ⟨rfl, ?_⟩⟩
        simp only [Option.getD_none]; rw [h2, h0]
    | some ja =>
      rcases h ja with h | ⟨h1, h2⟩
      · left; exact ⟨_, rfl, h⟩
      · right; refine ⟨h1, .inl ⟨?_, rfl⟩⟩
        simp only [Option.getD_some, Option.map_some]; rw [h2]
  · rw [if_neg hj, if_neg (Ne.symm hj)]
    rfl

theorem steps_events (am : AggMaps) (e : Emit) (ev : Str) :
    Steps (am.events.get? ev) ((am.applyE e).events.get? ev) (contrib (.event ev) e) := by
  rw [maps_events]
  cases e <;> simp only [contrib] <;> try rfl
  rename_i x
  by_cases h : x = ev
  · simp only [h, if_true]; exact .inl ⟨_, rfl, rfl⟩
  · simp [h, Steps]

theorem steps_errs (am : AggMaps) (e : Emit) (ev : Str) :
    Steps ((am.eventErrs.get? ev).map (·.count)) (((am.applyE e).eventErrs.get? ev).map (·.count)) (contrib (.error ev) e) := by
  rw [maps_errCount]
  cases e <;> simp only [contrib] <;> try rfl
  rename_i x _
  by_cases h : x = ev
  · simp only [h, if_true]; exact .inl ⟨_, rfl, rfl⟩
  · simp [h, Steps]

theorem steps_timerCount (am : AggMaps) (e : Emit) (ev : Str) :
    Steps ((am.timers.get? ev).map (·.count)) (((am.applyE e).timers.get? ev).map (·.count)) (contrib (.timerCount ev) e) := by
  rw [maps_timerCount]
  cases e <;> simp only [contrib] <;> try rfl
  rename_i x _
  by_cases h : x = ev
  · simp only [h, if_true]; exact .inl ⟨_, rfl, rfl⟩
  · simp [h, Steps]

theorem steps_timerSum (am : AggMaps) (e : Emit) (ev : Str) :
    Steps ((am.timers.get? ev).map (·.nanosSum)) (((am.applyE e).timers.get? ev).map (·.nanosSum)) (contrib (.timerSum ev) e) := by
  rw [maps_timerSum]
  cases e <;> simp only [contrib] <;> try rfl
  rename_i x _
  by_cases h : x = ev
  · simp only [h, if_true]; exact .inl ⟨_, rfl, rfl⟩
  · simp [h, Steps]

theorem contrib_job (j ev : Str) (e : Emit) :
    contrib (.jobEvent j ev) e = (if jobOf e = j then contrib (.event ev) e else none) ∧
    contrib (.jobError j ev) e = (if jobOf e = j then contrib (.error ev) e else none) ∧
    contrib (.jobTimerCount j ev) e = (if jobOf e = j then contrib (.timerCount ev) e else none) ∧
    contrib (.jobTimerSum j ev) e = (if jobOf e = j then contrib (.timerSum ev) e else none) := by
  cases e with
  | event a b => by_cases h1 : a = j <;> by_cases h2 : b = ev <;> simp [contrib, jobOf, h1, h2]
  | eventErr a b _ => by_cases h1 : a = j <;> by_cases h2 : b = ev <;> simp [contrib, jobOf, h1, h2]
  | timing a b _ => by_cases h1 : a = j <;> by_cases h2 : b = ev <;> simp [contrib, jobOf, h1, h2]
  | gauge a b _ => simp [contrib]
  | complete a _ _ => simp [contrib]

theorem ingest_fields (ja : JobAgg) (st : Status) (n : Int) :
    (ja.ingest st n).timer = ja.timer.ingest n ∧
    (ja.ingest st n).countSuccess = (if st = Status.success then i64 (ja.countSuccess + 1) else ja.countSuccess) ∧
    (ja.ingest st n).countValidationError = (if st = Status.validationError then i64 (ja.countValidationError + 1) else ja.countValidationError) ∧
    (ja.ingest st n).countPanic = (if st = Status.panic then i64 (ja.countPanic + 1) else ja.countPanic) ∧
    (ja.ingest st n).countError = (if st = Status.error then i64 (ja.countError + 1) else ja.countError) ∧
    (ja.ingest st n).countJunk = (if st = Status.junk then i64 (ja.countJunk + 1) else ja.countJunk) := by
  simp only [JobAgg.ingest, Status.success, Status.validationError, Status.panic, Status.error, Status.junk]
  by_cases e0 : st = 0
  · subst e0; simp
  by_cases e1 : st = 1
  · subst e1; simp
  by_cases e2 : st = 2
  · subst e2; simp
  by_cases e3 : st = 3
  · subst e3; simp
  by_cases e4 : st = 4
  · subst e4; simp
  simp [e0, e1, e2, e3, e4]

theorem value_step (ia : IntAgg) (e : Emit) (c : Counter) : Steps (value ia c) (value (ia.apply e) c) (contrib c e) := by
  cases c with
  | event ev => exact steps_maps (f := fun am => am.events.get? ev) (steps_events _ e ev)
  | error ev => exact steps_maps (f := fun am => (am.eventErrs.get? ev).map (·.count)) (steps_errs _ e ev)
  | timerCount ev => exact steps_maps (f := fun am => (am.timers.get? ev).map (·.count)) (steps_timerCount _ e ev)
  | timerSum ev => exact steps_maps (f := fun am => (am.timers.get? ev).map (·.nanosSum)) (steps_timerSum _ e ev)
  | jobEvent j ev =>
    rw [(contrib_job j ev e).1]
    exact steps_jobMaps (f := fun am => am.events.get? ev) j rfl (fun am => steps_events am e ev)
  | jobError j ev =>
    rw [(contrib_job j ev e).2.1]
    exact steps_jobMaps (f := fun am => (am.eventErrs.get? ev).map (·.count)) j rfl (fun am => steps_errs am e ev)
  | jobTimerCount j ev =>
    rw [(contrib_job j ev e).2.2.1]
    exact steps_jobMaps (f := fun am => (am.timers.get? ev).map (·.count)) j rfl (fun am => steps_timerCount am e ev)
  | jobTimerSum j ev =>
    rw [(contrib_job j ev e).2.2.2]
    exact steps_jobMaps (f := fun am => (am.timers.get? ev).map (·.nanosSum)) j rfl (fun am => steps_timerSum am e ev)
  | jobCount j =>
    refine steps_job (f := fun ja => ja.timer.count) j rfl (fun ja => ?_)
    cases e with
    | complete _ st n => left; simp only [JobAgg.applyE, (ingest_fields ja st n).1, TimerAgg.ingest]
    | _ => right; exact ⟨rfl, rfl⟩
  | jobSum j =>
    refine steps_job (f := fun ja => ja.timer.nanosSum) j rfl (fun ja => ?_)
    cases e with
    | complete _ st n => left; simp only [JobAgg.applyE, (ingest_fields ja st n).1, TimerAgg.ingest]
    | _ => right; exact ⟨rfl, rfl⟩
  | jobSuccess j =>
    refine steps_job (f := fun ja => ja.countSuccess) j rfl (fun ja => ?_)
    cases e with
    | complete _ st n =>
      simp only [JobAgg.applyE, (ingest_fields ja st n).2.1, hasStatus]
      by_cases h : st = Status.success <;> simp [h]
    | _ => right; exact ⟨rfl, rfl⟩
  | jobValidationError j =>
    refine steps_job (f := fun ja => ja.countValidationError) j rfl (fun ja => ?_)
    cases e with
    | complete _ st n =>
      simp only [JobAgg.applyE, (ingest_fields ja st n).2.2.1, hasStatus]
      by_cases h : st = Status.validationError <;> simp [h]
    | _ => right; exact ⟨rfl, rfl⟩
  | jobPanic j =>
    refine steps_job (f := fun ja => ja.countPanic) j rfl (fun ja => ?_)
    cases e with
    | complete _ st n =>
      simp only [JobAgg.applyE, (ingest_fields ja st n).2.2.2.1, hasStatus]
      by_cases h : st = Status.panic <;> simp [h]
    | _ => right; exact ⟨rfl, rfl⟩
  | jobErrors j =>
    refine steps_job (f := fun ja => ja.countError) j rfl (fun ja => ?_)
    cases e with
    | complete _ st n =>
      simp only [JobAgg.applyE, (ingest_fields ja st n).2.2.2.2.1, hasStatus]
      by_cases h : st = Status.error <;> simp [h]
    | _ => right; exact ⟨rfl, rfl⟩
  | jobJunk j =>
    refine steps_job (f := fun ja => ja.countJunk) j rfl (fun ja => ?_)
    cases e with
    | complete _ st n =>
      simp only [JobAgg.applyE, (ingest_fields ja st n).2.2.2.2.2, hasStatus]
      by_cases h : st = Status.junk <;> simp [h]
    | _ => right; exact ⟨rfl, rfl⟩

/-- Every counter of an aggregation built from emissions is what the specification says. -/
theorem value_aggOf (s : Time) (es : List Emit) (c : Counter) : value (aggOf s es) c = expected c es := by
  induction es using snocInduction with
  | nil => cases c <;> rfl
  | snoc l e ih =>
    unfold expected at *
    rw [aggOf_snoc, List.map_append, List.map_cons, List.map_nil, sumI_snoc, sumI_pair]
    have hs := value_step (aggOf s l) e c
    have hr := sumI_map_i64 (l.map (contrib c))
    rw [ih] at hs
    generalize sumI (l.map (contrib c)) = o at *
    generalize value ((aggOf s l).apply e) c = v at *
    unfold Steps at hs
    cases hc : contrib c e with
    | none =>
      rw [hc] at hs
      simp only at hs
      rw [hs]
      cases o with
      | none => rfl
      | some x => simpa using hr.symm
    | some δ =>
      rw [hc] at hs
      simp only at hs
      rcases hs with ⟨y, h1, h2⟩ | ⟨h1, ⟨h2, h3⟩ | ⟨h2, h3⟩⟩
      · subst h2; rw [h1]
        cases o <;> simp
      · subst h1; subst h2
        cases v with
        | none => simp at h3
        | some x => simpa using hr.symm
      · subst h1; subst h2; subst h3; simp
