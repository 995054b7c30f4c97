import Verif.Lemmas.Base
import Verif.Spec.History
/-! Characterisation of the state of an aggregation after a list of emissions. -/
open Spec

/-- effect of an emission on a group of maps (interval-wide or of the emission's job). -/
def AggMaps.applyE (am : AggMaps) : Emit → AggMaps
  | .event _ ev => am.incEvent ev
  | .eventErr _ ev e => am.addErr ev e
  | .timing _ ev n => am.addTiming ev n
  | .gauge _ ev v => am.setGauge ev v
  | .complete _ _ _ => am

/-- effect of an emission on its job. -/
def JobAgg.applyE (j : JobAgg) : Emit → JobAgg
  | .complete _ st n => j.ingest st n
  | e => { j with maps := j.maps.applyE e }

def mapsOf (es : List Emit) : AggMaps := es.foldl AggMaps.applyE AggMaps.init
def jobAggOf (es : List Emit) : JobAgg := es.foldl JobAgg.applyE JobAgg.init
def aggOf (s : Time) (es : List Emit) : IntAgg := es.foldl IntAgg.apply (IntAgg.new s)

theorem IntAgg.apply_eq (ia : IntAgg) (e : Emit) :
    ia.apply e = { start := ia.start, serial := i64 (ia.serial + 1), maps := ia.maps.applyE e,
                   jobs := ia.jobs.set (jobOf e) ((ia.jobs.getD (jobOf e) JobAgg.init).applyE e) } := by
  cases e <;> rfl

theorem aggOf_snoc (s : Time) (es : List Emit) (e : Emit) : aggOf s (es ++ [e]) = (aggOf s es).apply e := by
  simp [aggOf]
theorem mapsOf_snoc (es : List Emit) (e : Emit) : mapsOf (es ++ [e]) = (mapsOf es).applyE e := by
  simp [mapsOf]
theorem jobAggOf_snoc (es : List Emit) (e : Emit) : jobAggOf (es ++ [e]) = (jobAggOf es).applyE e := by
  simp [jobAggOf]

/-- induction on lists from the right. -/
theorem snocInduction {α : Type} {P : List α → Prop} (nil : P []) (snoc : ∀ l a, P l → P (l ++ [a])) : ∀ l, P l := by
  intro l
  rw [← List.reverse_reverse l]
  induction l.reverse with
  | nil => exact nil
  | cons a t ih => rw [List.reverse_cons]; exact snoc _ _ ih

theorem ofJob_snoc (j : Str) (es : List Emit) (e : Emit) :
    ofJob j (es ++ [e]) = if jobOf e = j then ofJob j es ++ [e] else ofJob j es := by
  unfold ofJob
  rw [List.filter_append]
  split <;> simp_all

theorem aggOf_start (s : Time) (es : List Emit) : (aggOf s es).start = s := by
  induction es using snocInduction with
  | nil => rfl
  | snoc l a ih => rw [aggOf_snoc, IntAgg.apply_eq]; exact ih

theorem aggOf_serial (s : Time) (es : List Emit) : (aggOf s es).serial = i64 es.length := by
  induction es using snocInduction with
  | nil => simp [aggOf, IntAgg.new]
  | snoc l a ih => rw [aggOf_snoc, IntAgg.apply_eq]; simp [ih]

theorem aggOf_maps (s : Time) (es : List Emit) : (aggOf s es).maps = mapsOf es := by
  induction es using snocInduction with
  | nil => rfl
  | snoc l a ih => rw [aggOf_snoc, IntAgg.apply_eq, mapsOf_snoc, ih]

/-- a job's entry exists iff the job emitted something; it depends only on that job's emissions. -/
theorem aggOf_jobs (s : Time) (es : List Emit) (j : Str) :
    (aggOf s es).jobs.get? j = if ofJob j es = [] then none else some (jobAggOf (ofJob j es)) := by
  induction es using snocInduction with
  | nil => simp [aggOf, IntAgg.new, ofJob]
  | snoc l a ih =>
    rw [aggOf_snoc, IntAgg.apply_eq, ofJob_snoc]
    simp only [GoMap.get?_set]
    by_cases hj : j = jobOf a
    · subst hj
      simp only [if_true, List.append_eq_nil_iff, List.cons_ne_nil, and_false, if_false]
      rw [jobAggOf_snoc, GoMap.getD, ih]
      congr 2
      split
      · rename_i h; rw [h]; rfl
      · rfl
    · rw [if_neg hj, if_neg (Ne.symm hj), ih]

theorem jobAggOf_maps (es : List Emit) : (jobAggOf es).maps = mapsOf es := by
  induction es using snocInduction with
  | nil => rfl
  | snoc l a ih =>
    rw [jobAggOf_snoc, mapsOf_snoc, ← ih]
    cases a <;> try rfl
    simp only [JobAgg.applyE, AggMaps.applyE, JobAgg.ingest]
    repeat' split
    all_goals rfl

/-! ### events -/
theorem eventCount_snoc (ev : Str) (es : List Emit) (e : Emit) :
    eventCount ev (es ++ [e]) = eventCount ev es + eventCount ev [e] := by
  simp [eventCount, List.countP_append]

theorem mapsOf_events (es : List Emit) (ev : Str) :
    (mapsOf es).events.get? ev = counter (eventCount ev es) := by
  induction es using snocInduction with
  | nil => rfl
  | snoc l a ih =>
    rw [mapsOf_snoc, eventCount_snoc]
    cases a with
    | event j e =>
      simp only [AggMaps.applyE, AggMaps.incEvent, GoMap.get?_set, GoMap.getD]
      by_cases h : ev = e
      · subst h
        have h1 : eventCount ev [Emit.event j ev] = 1 := by simp [eventCount]
        rw [if_pos rfl, ih, h1]
        unfold counter
        rw [if_neg (Nat.succ_ne_zero _)]
        split
        · rename_i h0; simp [h0]
        · simp
      · rw [if_neg h, ih]
        simp [eventCount, Ne.symm h]
    | _ => simpa [AggMaps.applyE, AggMaps.addErr, AggMaps.addTiming, AggMaps.setGauge, eventCount] using ih

/-! ### gauges -/
theorem mapsOf_gauges (es : List Emit) (ev : Str) :
    (mapsOf es).gauges.get? ev = (gaugeValues ev es).getLast? := by
  induction es using snocInduction with
  | nil => rfl
  | snoc l a ih =>
    rw [mapsOf_snoc]
    unfold gaugeValues at *
    rw [List.filterMap_append]
    cases a with
    | gauge j e v =>
      simp only [AggMaps.applyE, AggMaps.setGauge, GoMap.get?_set]
      by_cases h : ev = e
      · subst h; simp
      · rw [if_neg h, ih]; simp [Ne.symm h]
    | _ => simpa [AggMaps.applyE, AggMaps.addErr, AggMaps.addTiming, AggMaps.incEvent] using ih

/-! ### timers -/
def timerOf (xs : List Int) : TimerAgg := xs.foldl TimerAgg.ingest TimerAgg.zero

theorem timerOf_snoc (xs : List Int) (x : Int) : timerOf (xs ++ [x]) = (timerOf xs).ingest x := by
  simp [timerOf]

theorem mapsOf_timers (es : List Emit) (ev : Str) :
    (mapsOf es).timers.get? ev = if timings ev es = [] then none else some (timerOf (timings ev es)) := by
  induction es using snocInduction with
  | nil => rfl
  | snoc l a ih =>
    rw [mapsOf_snoc]
    unfold timings at *
    rw [List.filterMap_append]
    cases a with
    | timing j e n =>
      simp only [AggMaps.applyE, AggMaps.addTiming, GoMap.get?_set, GoMap.getD]
      by_cases h : ev = e
      · subst h
        simp only [if_true, List.filterMap_cons, List.filterMap_nil, List.append_eq_nil_iff, List.cons_ne_nil,
          and_false, if_false]
        rw [ih, timerOf_snoc]
        congr 2
        split
        · rename_i h0; rw [h0]; rfl
        · rfl
      · rw [if_neg h, ih]; simp [Ne.symm h]
    | _ => simpa [AggMaps.applyE, AggMaps.addErr, AggMaps.incEvent, AggMaps.setGauge] using ih

theorem timerOf_count (xs : List Int) : (timerOf xs).count = i64 xs.length := by
  induction xs using snocInduction with
  | nil => simp [timerOf, TimerAgg.zero]
  | snoc l a ih => rw [timerOf_snoc]; simp [TimerAgg.ingest, ih]

theorem i64_succ_eq_one_iff {n : Nat} (h : n + 1 < 2^63) : i64 (i64 n + 1) = 1 ↔ n = 0 := by
  rw [i64_add_i64_left]
  rw [i64_of_range (by omega) (by omega)]
  omega

theorem timerOf_min (xs : List Int) (hne : xs ≠ []) (hl : xs.length < 2^63) : Least (timerOf xs).nanosMin xs := by
  induction xs using snocInduction with
  | nil => exact absurd rfl hne
  | snoc l a ih =>
    rw [timerOf_snoc]
    simp only [List.length_append, List.length_cons, List.length_nil] at hl
    simp only [TimerAgg.ingest, timerOf_count, i64_succ_eq_one_iff (show l.length + 1 < 2^63 by omega)]
    unfold Least
    by_cases h0 : l = []
    · subst h0; simp
    · have := ih h0 (by omega)
      have hn : ¬ l.length = 0 := by simpa using h0
      obtain ⟨h1, h2⟩ := this
      simp only [hn, false_or]
      split
      · refine ⟨by simp, fun x hx => ?_⟩
        rcases List.mem_append.1 hx with hx | hx
        · have := h2 x hx; omega
        · simp at hx; omega
      · refine ⟨by simp [h1], fun x hx => ?_⟩
        rcases List.mem_append.1 hx with hx | hx
        · exact h2 x hx
        · simp at hx; omega

theorem timerOf_max (xs : List Int) (hne : xs ≠ []) (hl : xs.length < 2^63) : Greatest (timerOf xs).nanosMax xs := by
  induction xs using snocInduction with
  | nil => exact absurd rfl hne
  | snoc l a ih =>
    rw [timerOf_snoc]
    simp only [List.length_append, List.length_cons, List.length_nil] at hl
    simp only [TimerAgg.ingest, timerOf_count, i64_succ_eq_one_iff (show l.length + 1 < 2^63 by omega)]
    unfold Greatest
    by_cases h0 : l = []
    · subst h0; simp
    · have := ih h0 (by omega)
      have hn : ¬ l.length = 0 := by simpa using h0
      obtain ⟨h1, h2⟩ := this
      simp only [hn, false_or]
      split
      · refine ⟨by simp, fun x hx => ?_⟩
        rcases List.mem_append.1 hx with hx | hx
        · have := h2 x hx; omega
        · simp at hx; omega
      · refine ⟨by simp [h1], fun x hx => ?_⟩
        rcases List.mem_append.1 hx with hx | hx
        · exact h2 x hx
        · simp at hx; omega

theorem timerOf_sum (xs : List Int) : (timerOf xs).nanosSum = i64 xs.sum := by
  induction xs using snocInduction with
  | nil => simp [timerOf, TimerAgg.zero]
  | snoc l a ih => rw [timerOf_snoc]; simp [TimerAgg.ingest, ih]

theorem timerOf_sumSquares (xs : List Int) : (timerOf xs).nanosSumSquares = sumSquares xs := by
  induction xs using snocInduction with
  | nil => rfl
  | snoc l a ih => rw [timerOf_snoc]; simp [TimerAgg.ingest, ih, sumSquares]

theorem timerOf_summarises (xs : List Int) : Summarises (timerOf xs) xs where
  count := timerOf_count xs
  sum := timerOf_sum xs
  sumSquares := timerOf_sumSquares xs
  min := timerOf_min xs
  max := timerOf_max xs
  empty := by rintro rfl; exact ⟨rfl, rfl⟩

/-! ### job completions -/
theorem completions_snoc (es : List Emit) (e : Emit) : completions (es ++ [e]) = completions es ++ completions [e] := by
  simp [completions, List.filterMap_append]

theorem jobAggOf_timer (es : List Emit) : (jobAggOf es).timer = timerOf ((completions es).map (·.2)) := by
  induction es using snocInduction with
  | nil => rfl
  | snoc l a ih =>
    rw [jobAggOf_snoc, completions_snoc]
    cases a with
    | complete j st n =>
      simp only [JobAgg.applyE, completions, List.filterMap_cons, List.filterMap_nil, List.map_append, List.map_cons,
        List.map_nil]
      rw [timerOf_snoc, ← completions, ← ih]
      simp only [JobAgg.ingest]
      repeat' split
      all_goals rfl
    | _ => simpa [JobAgg.applyE, completions] using ih

/-- the counter kept for a status. -/
def JobAgg.statusCounter (j : JobAgg) (st : Status) : Int :=
  if st = Status.success then j.countSuccess
  else if st = Status.validationError then j.countValidationError
  else if st = Status.panic then j.countPanic
  else if st = Status.error then j.countError
  else j.countJunk

theorem jobAggOf_status (es : List Emit) :
    (jobAggOf es).countSuccess = i64 (statusCount Status.success es) ∧
    (jobAggOf es).countValidationError = i64 (statusCount Status.validationError es) ∧
    (jobAggOf es).countPanic = i64 (statusCount Status.panic es) ∧
    (jobAggOf es).countError = i64 (statusCount Status.error es) ∧
    (jobAggOf es).countJunk = i64 (statusCount Status.junk es) := by
  induction es using snocInduction with
  | nil => simp [jobAggOf, JobAgg.init, statusCount, completions]
  | snoc l a ih =>
    rw [jobAggOf_snoc]
    unfold statusCount at *
    simp only [completions_snoc, List.countP_append]
    obtain ⟨h1, h2, h3, h4, h5⟩ := ih
    cases a with
    | complete j st n =>
      have hc : completions [Emit.complete j st n] = [(st, n)] := rfl
      simp only [JobAgg.applyE, JobAgg.ingest, hc, List.countP_cons, List.countP_nil]
      simp only [Status.success, Status.validationError, Status.panic, Status.error, Status.junk] at *
      by_cases e0 : st = 0
      · subst e0; simp [h1, h2, h3, h4, h5]
      by_cases e1 : st = 1
      · subst e1; simp [h1, h2, h3, h4, h5]
      by_cases e2 : st = 2
      · subst e2; simp [h1, h2, h3, h4, h5]
      by_cases e3 : st = 3
      · subst e3; simp [h1, h2, h3, h4, h5]
      by_cases e4 : st = 4
      · subst e4; simp [h1, h2, h3, h4, h5]
      · simp [e0, e1, e2, e3, e4, h1, h2, h3, h4, h5]
    | _ =>
      simp only [JobAgg.applyE]
      simpa [completions] using ⟨h1, h2, h3, h4, h5⟩
