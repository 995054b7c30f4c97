import Verif.Lemmas.Exact
import Verif.Spec.Counters
/-! Lookups after a merge. -/
open Spec

/-- merging map `frm` into `into` key by key. -/
theorem get?_foldl_upd {V : Type} (upd : Option V → V → V) (step : GoMap Str V → Str × V → GoMap Str V)
    (hstep : ∀ m p, step m p = m.set p.1 (upd (m.get? p.1) p.2)) (frm : GoMap Str V) (hw : GoMap.Wf frm)
    (into : GoMap Str V) (k : Str) :
    (frm.foldl step into).get? k =
      match frm.get? k with
      | none => into.get? k
      | some v => some (upd (into.get? k) v) := by
  induction frm generalizing into with
  | nil => rfl
  | cons p t ih =>
    obtain ⟨a, v⟩ := p
    have hw' : GoMap.Wf t := by
      unfold GoMap.Wf GoMap.keys at *; simp at hw; exact hw.2
    have ha : GoMap.get? t a = none := by
      rw [GoMap.get?_eq_none_iff]
      unfold GoMap.Wf GoMap.keys at *
      simp only [List.map_cons, List.nodup_cons] at hw; exact hw.1
    rw [List.foldl_cons, ih hw', hstep]
    simp only [GoMap.get?_cons, GoMap.get?_set]
    by_cases h : a = k
    · subst h; simp [ha]
    · simp [h, Ne.symm h]

theorem wf_foldl_set {V : Type} (step : GoMap Str V → Str × V → GoMap Str V) (f : GoMap Str V → Str × V → V)
    (hstep : ∀ m p, step m p = m.set p.1 (f m p)) (frm : GoMap Str V) (into : GoMap Str V)
    (hw : GoMap.Wf into) : GoMap.Wf (frm.foldl step into) := by
  induction frm generalizing into with
  | nil => exact hw
  | cons p t ih => rw [List.foldl_cons, hstep]; exact ih _ (hw.set _ _)

theorem mergeEvents_get? (into frm : GoMap Str Int) (hw : GoMap.Wf frm) (k : Str) :
    (mergeEvents into frm).get? k =
      match frm.get? k with
      | none => into.get? k
      | some v => some (i64 ((into.get? k).getD 0 + v)) := by
  rw [mergeEvents, get?_foldl_upd (fun o v => i64 (o.getD 0 + v)) _ (fun m p => by obtain ⟨a, b⟩ := p; rfl) frm hw into k]
  cases frm.get? k <;> rfl

theorem mergeGauges_get? (into frm : GoMap Str F64) (hw : GoMap.Wf frm) (k : Str) :
    (mergeGauges into frm).get? k = (frm.get? k).or (into.get? k) := by
  rw [mergeGauges, get?_foldl_upd (fun _ v => v) _ (fun m p => by obtain ⟨a, b⟩ := p; rfl) frm hw into k]
  cases frm.get? k <;> rfl

/-- merged or copied value. -/
def mergeOpt {V : Type} (f : V → V → V) (o : Option V) (v : V) : V :=
  match o with | some w => f w v | none => v

theorem mergeTimers_get? (into frm : GoMap Str TimerAgg) (hw : GoMap.Wf frm) (k : Str) :
    (mergeTimers into frm).get? k =
      match frm.get? k with
      | none => into.get? k
      | some v => some (mergeOpt TimerAgg.merge (into.get? k) v) := by
  rw [mergeTimers, get?_foldl_upd (mergeOpt TimerAgg.merge) _ (fun m p => by obtain ⟨a, b⟩ := p; simp only [mergeOpt]; cases m.get? a <;> rfl) frm hw into k]
  cases frm.get? k <;> rfl

theorem mergeErrs_get? (into frm : GoMap Str ErrorCounter) (hw : GoMap.Wf frm) (k : Str) :
    (mergeErrs into frm).get? k =
      match frm.get? k with
      | none => into.get? k
      | some v => some (mergeOpt ErrorCounter.merge (into.get? k) v) := by
  rw [mergeErrs, get?_foldl_upd (mergeOpt ErrorCounter.merge) _ (fun m p => by obtain ⟨a, b⟩ := p; simp only [mergeOpt]; cases m.get? a <;> rfl) frm hw into k]
  cases frm.get? k <;> rfl

theorem mergeJobs_get? (into frm : GoMap Str JobAgg) (hw : GoMap.Wf frm) (hj : ∀ p ∈ frm, p.2.maps.Wf) (k : Str) :
    (mergeJobs into frm).get? k =
      match frm.get? k with
      | none => into.get? k
      | some v => some (mergeOpt JobAgg.merge (into.get? k) v) := by
  have h1 := get?_foldl_upd (fun o v => match o with | some w => JobAgg.merge w v | none => v.clone)
    (fun m (p : Str × JobAgg) => match m.get? p.1 with
      | some existing => m.set p.1 (existing.merge p.2)
      | none => m.set p.1 p.2.clone) (fun m p => by cases m.get? p.1 <;> simp) frm hw into k
  unfold mergeJobs
  refine Eq.trans h1 ?_
  cases h : frm.get? k with
  | none => rfl
  | some v =>
    have := hj _ (GoMap.mem_of_get? h)
    simp only [mergeOpt]
    cases into.get? k with
    | some w => rfl
    | none => simp only [JobAgg.clone, AggMaps.clone_eq this]

theorem ErrorCounter.merge_count (a b : ErrorCounter) : (a.merge b).count = i64 (a.count + b.count) := by
  unfold ErrorCounter.merge
  have : ∀ (l : List (Option Err)) (c : ErrorCounter),
      (l.foldl (fun ec e => if e.isSome then ec.addError e else ec) c).count = c.count := by
    intro l
    induction l with
    | nil => intro c; rfl
    | cons e t ih =>
      intro c
      rw [List.foldl_cons, ih]
      split
      · exact addError_count _ _
      · rfl
  rw [this]

theorem AggMaps.Wf.merge {a b : AggMaps} (ha : a.Wf) : (a.merge b).Wf where
  timers := by
    refine wf_foldl_set _ (fun m p => mergeOpt TimerAgg.merge (m.get? p.1) p.2) (fun m p => ?_) _ _ ha.timers
    simp only [mergeOpt]; cases m.get? p.1 <;> rfl
  gauges := wf_foldl_set _ (fun m p => p.2) (fun m p => rfl) _ _ ha.gauges
  events := wf_foldl_set _ (fun m p => i64 ((m.get? p.1).getD 0 + p.2)) (fun m p => rfl) _ _ ha.events
  eventErrs := by
    refine wf_foldl_set _ (fun m p => mergeOpt ErrorCounter.merge (m.get? p.1) p.2) (fun m p => ?_) _ _ ha.eventErrs
    simp only [mergeOpt]; cases m.get? p.1 <;> rfl

theorem IntAgg.Wf.merge {a b : IntAgg} (ha : a.Wf) (hb : b.Wf) : (a.merge b).Wf where
  jobs := by
    refine wf_foldl_set _ (fun m p => match m.get? p.1 with | some w => JobAgg.merge w p.2 | none => p.2.clone)
      (fun m p => ?_) _ _ ha.jobs
    simp only; cases m.get? p.1 <;> rfl
  maps := ha.maps.merge
  jobMaps := by
    have hw : GoMap.Wf (mergeJobs a.jobs b.jobs) := by
      refine wf_foldl_set _ (fun m p => match m.get? p.1 with | some w => JobAgg.merge w p.2 | none => p.2.clone)
        (fun m p => ?_) _ _ ha.jobs
      simp only; cases m.get? p.1 <;> rfl
    rintro ⟨k, j⟩ hp
    have h1 := GoMap.get?_of_mem hw hp
    rw [mergeJobs_get? _ _ hb.jobs hb.jobMaps] at h1
    cases h2 : b.jobs.get? k with
    | none =>
      rw [h2] at h1
      exact ha.jobMaps _ (GoMap.mem_of_get? h1)
    | some v =>
      rw [h2] at h1
      simp only [Option.some.injEq, mergeOpt] at h1
      cases h3 : a.jobs.get? k with
      | none => rw [h3] at h1; subst h1; exact hb.jobMaps _ (GoMap.mem_of_get? h2)
      | some w => rw [h3] at h1; subst h1; exact (ha.jobMaps _ (GoMap.mem_of_get? h3)).merge

/-! ### counters -/

theorem sumI_pair (x y : Option Int) : sumI [x, y] =
    match x, y with
    | none, none => none
    | some x, none => some (i64 x)
    | none, some y => some (i64 y)
    | some x, some y => some (i64 (x + y)) := by
  cases x <;> cases y <;> simp [sumI]

theorem value_merge (a b : IntAgg) (hb : b.Wf) (c : Counter) :
    (value (a.merge b) c).map i64 = sumI [value a c, value b c] := by
  rw [sumI_pair]
  have hE := fun k => mergeEvents_get? a.maps.events b.maps.events hb.maps.events k
  have hR := fun k => mergeErrs_get? a.maps.eventErrs b.maps.eventErrs hb.maps.eventErrs k
  have hT := fun k => mergeTimers_get? a.maps.timers b.maps.timers hb.maps.timers k
  have hJ := fun k => mergeJobs_get? a.jobs b.jobs hb.jobs hb.jobMaps k
  cases c with
  | event ev =>
    simp only [value, IntAgg.merge, AggMaps.merge, hE]
    cases a.maps.events.get? ev <;> cases b.maps.events.get? ev <;> simp
  | error ev =>
    simp only [value, IntAgg.merge, AggMaps.merge, hR]
    cases a.maps.eventErrs.get? ev <;> cases b.maps.eventErrs.get? ev <;> simp [mergeOpt, ErrorCounter.merge_count]
  | timerCount ev =>
    simp only [value, IntAgg.merge, AggMaps.merge, hT]
    cases a.maps.timers.get? ev <;> cases b.maps.timers.get? ev <;> simp [mergeOpt, TimerAgg.merge]
  | timerSum ev =>
    simp only [value, IntAgg.merge, AggMaps.merge, hT]
    cases a.maps.timers.get? ev <;> cases b.maps.timers.get? ev <;> simp [mergeOpt, TimerAgg.merge]
  | jobEvent j ev =>
    simp only [value, IntAgg.merge, hJ]
    cases h2 : b.jobs.get? j with
    | none => cases a.jobs.get? j with
      | none => simp
      | some w => simp; cases w.maps.events.get? ev <;> simp
    | some v =>
      have hv := hb.jobMaps _ (GoMap.mem_of_get? h2)
      cases a.jobs.get? j with
      | none => simp [mergeOpt]; cases v.maps.events.get? ev <;> simp
      | some w =>
        simp only [mergeOpt, JobAgg.merge, AggMaps.merge, Option.bind_some, mergeEvents_get? _ _ hv.events]
        cases w.maps.events.get? ev <;> cases v.maps.events.get? ev <;> simp
  | jobError j ev =>
    simp only [value, IntAgg.merge, hJ]
    cases h2 : b.jobs.get? j with
    | none => cases a.jobs.get? j with
      | none => simp
      | some w => simp; cases w.maps.eventErrs.get? ev <;> simp
    | some v =>
      have hv := hb.jobMaps _ (GoMap.mem_of_get? h2)
      cases a.jobs.get? j with
      | none => simp [mergeOpt]; cases v.maps.eventErrs.get? ev <;> simp
      | some w =>
        simp only [mergeOpt, JobAgg.merge, AggMaps.merge, Option.bind_some, mergeErrs_get? _ _ hv.eventErrs]
        cases w.maps.eventErrs.get? ev <;> cases v.maps.eventErrs.get? ev <;> simp [ErrorCounter.merge_count]
  | jobTimerCount j ev =>
    simp only [value, IntAgg.merge, hJ]
    cases h2 : b.jobs.get? j with
    | none => cases a.jobs.get? j with
      | none => simp
      | some w => simp; cases w.maps.timers.get? ev <;> simp
    | some v =>
      have hv := hb.jobMaps _ (GoMap.mem_of_get? h2)
      cases a.jobs.get? j with
      | none => simp [mergeOpt]; cases v.maps.timers.get? ev <;> simp
      | some w =>
        simp only [mergeOpt, JobAgg.merge, AggMaps.merge, Option.bind_some, mergeTimers_get? _ _ hv.timers]
        cases w.maps.timers.get? ev <;> cases v.maps.timers.get? ev <;> simp [TimerAgg.merge]
  | jobTimerSum j ev =>
    simp only [value, IntAgg.merge, hJ]
    cases h2 : b.jobs.get? j with
    | none => cases a.jobs.get? j with
      | none => simp
      | some w => simp; cases w.maps.timers.get? ev <;> simp
    | some v =>
      have hv := hb.jobMaps _ (GoMap.mem_of_get? h2)
      cases a.jobs.get? j with
      | none => simp [mergeOpt]; cases v.maps.timers.get? ev <;> simp
      | some w =>
        simp only [mergeOpt, JobAgg.merge, AggMaps.merge, Option.bind_some, mergeTimers_get? _ _ hv.timers]
        cases w.maps.timers.get? ev <;> cases v.maps.timers.get? ev <;> simp [TimerAgg.merge]
  | jobCount j =>
    simp only [value, IntAgg.merge, hJ]
    cases a.jobs.get? j <;> cases b.jobs.get? j <;> simp [mergeOpt, JobAgg.merge, TimerAgg.merge]
  | jobSum j =>
    simp only [value, IntAgg.merge, hJ]
    cases a.jobs.get? j <;> cases b.jobs.get? j <;> simp [mergeOpt, JobAgg.merge, TimerAgg.merge]
  | jobSuccess j =>
    simp only [value, IntAgg.merge, hJ]
    cases a.jobs.get? j <;> cases b.jobs.get? j <;> simp [mergeOpt, JobAgg.merge]
  | jobValidationError j =>
    simp only [value, IntAgg.merge, hJ]
    cases a.jobs.get? j <;> cases b.jobs.get? j <;> simp [mergeOpt, JobAgg.merge]
  | jobPanic j =>
    simp only [value, IntAgg.merge, hJ]
    cases a.jobs.get? j <;> cases b.jobs.get? j <;> simp [mergeOpt, JobAgg.merge]
  | jobErrors j =>
    simp only [value, IntAgg.merge, hJ]
    cases a.jobs.get? j <;> cases b.jobs.get? j <;> simp [mergeOpt, JobAgg.merge]
  | jobJunk j =>
    simp only [value, IntAgg.merge, hJ]
    cases a.jobs.get? j <;> cases b.jobs.get? j <;> simp [mergeOpt, JobAgg.merge]

/-- exact form of `value_merge`: values are copied or added. -/
theorem value_merge_exact (a b : IntAgg) (hb : b.Wf) (c : Counter) (hr : (value b c).map i64 = value b c) :
    value (a.merge b) c =
      match value a c, value b c with
      | none, none => none
      | some x, none => some x
      | none, some y => some y
      | some x, some y => some (i64 (x + y)) := by
  have hE := fun k => mergeEvents_get? a.maps.events b.maps.events hb.maps.events k
  have hR := fun k => mergeErrs_get? a.maps.eventErrs b.maps.eventErrs hb.maps.eventErrs k
  have hT := fun k => mergeTimers_get? a.maps.timers b.maps.timers hb.maps.timers k
  have hJ := fun k => mergeJobs_get? a.jobs b.jobs hb.jobs hb.jobMaps k
  cases c with
  | event ev =>
    simp only [value, IntAgg.merge, AggMaps.merge, hE] at hr ⊢
    cases a.maps.events.get? ev <;> cases h : b.maps.events.get? ev <;> simp
    simpa [h] using hr
  | error ev =>
    simp only [value, IntAgg.merge, AggMaps.merge, hR]
    cases a.maps.eventErrs.get? ev <;> cases b.maps.eventErrs.get? ev <;> simp [mergeOpt, ErrorCounter.merge_count]
  | timerCount ev =>
    simp only [value, IntAgg.merge, AggMaps.merge, hT]
    cases a.maps.timers.get? ev <;> cases b.maps.timers.get? ev <;> simp [mergeOpt, TimerAgg.merge]
  | timerSum ev =>
    simp only [value, IntAgg.merge, AggMaps.merge, hT]
    cases a.maps.timers.get? ev <;> cases b.maps.timers.get? ev <;> simp [mergeOpt, TimerAgg.merge]
  | jobEvent j ev =>
    simp only [value, IntAgg.merge, hJ]
    cases h2 : b.jobs.get? j with
    | none => cases a.jobs.get? j with
      | none => simp
      | some w => simp; cases w.maps.events.get? ev <;> simp
    | some v =>
      have hv := hb.jobMaps _ (GoMap.mem_of_get? h2)
      cases a.jobs.get? j with
      | none => simp [mergeOpt]; cases v.maps.events.get? ev <;> simp
      | some w =>
        simp only [mergeOpt, JobAgg.merge, AggMaps.merge, Option.bind_some, mergeEvents_get? _ _ hv.events]
        cases w.maps.events.get? ev <;> cases h : v.maps.events.get? ev <;> simp
        simpa [value, h2, h] using hr
  | jobError j ev =>
    simp only [value, IntAgg.merge, hJ]
    cases h2 : b.jobs.get? j with
    | none => cases a.jobs.get? j with
      | none => simp
      | some w => simp; cases w.maps.eventErrs.get? ev <;> simp
    | some v =>
      have hv := hb.jobMaps _ (GoMap.mem_of_get? h2)
      cases a.jobs.get? j with
      | none => simp [mergeOpt]; cases v.maps.eventErrs.get? ev <;> simp
      | some w =>
        simp only [mergeOpt, JobAgg.merge, AggMaps.merge, Option.bind_some, mergeErrs_get? _ _ hv.eventErrs]
        cases w.maps.eventErrs.get? ev <;> cases v.maps.eventErrs.get? ev <;> simp [ErrorCounter.merge_count]
  | jobTimerCount j ev =>
    simp only [value, IntAgg.merge, hJ]
    cases h2 : b.jobs.get? j with
    | none => cases a.jobs.get? j with
      | none => simp
      | some w => simp; cases w.maps.timers.get? ev <;> simp
    | some v =>
      have hv := hb.jobMaps _ (GoMap.mem_of_get? h2)
      cases a.jobs.get? j with
      | none => simp [mergeOpt]; cases v.maps.timers.get? ev <;> simp
      | some w =>
        simp only [mergeOpt, JobAgg.merge, AggMaps.merge, Option.bind_some, mergeTimers_get? _ _ hv.timers]
        cases w.maps.timers.get? ev <;> cases v.maps.timers.get? ev <;> simp [TimerAgg.merge]
  | jobTimerSum j ev =>
    simp only [value, IntAgg.merge, hJ]
    cases h2 : b.jobs.get? j with
    | none => cases a.jobs.get? j with
      | none => simp
      | some w => simp; cases w.maps.timers.get? ev <;> simp
    | some v =>
      have hv := hb.jobMaps _ (GoMap.mem_of_get? h2)
      cases a.jobs.get? j with
      | none => simp [mergeOpt]; cases v.maps.timers.get? ev <;> simp
      | some w =>
        simp only [mergeOpt, JobAgg.merge, AggMaps.merge, Option.bind_some, mergeTimers_get? _ _ hv.timers]
        cases w.maps.timers.get? ev <;> cases v.maps.timers.get? ev <;> simp [TimerAgg.merge]
  | jobCount j =>
    simp only [value, IntAgg.merge, hJ]
    cases a.jobs.get? j <;> cases b.jobs.get? j <;> simp [mergeOpt, JobAgg.merge, TimerAgg.merge]
  | jobSum j =>
    simp only [value, IntAgg.merge, hJ]
    cases a.jobs.get? j <;> cases b.jobs.get? j <;> simp [mergeOpt, JobAgg.merge, TimerAgg.merge]
  | jobSuccess j =>
    simp only [value, IntAgg.merge, hJ]
    cases a.jobs.get? j <;> cases b.jobs.get? j <;> simp [mergeOpt, JobAgg.merge]
  | jobValidationError j =>
    simp only [value, IntAgg.merge, hJ]
    cases a.jobs.get? j <;> cases b.jobs.get? j <;> simp [mergeOpt, JobAgg.merge]
  | jobPanic j =>
    simp only [value, IntAgg.merge, hJ]
    cases a.jobs.get? j <;> cases b.jobs.get? j <;> simp [mergeOpt, JobAgg.merge]
  | jobErrors j =>
    simp only [value, IntAgg.merge, hJ]
    cases a.jobs.get? j <;> cases b.jobs.get? j <;> simp [mergeOpt, JobAgg.merge]
  | jobJunk j =>
    simp only [value, IntAgg.merge, hJ]
    cases a.jobs.get? j <;> cases b.jobs.get? j <;> simp [mergeOpt, JobAgg.merge]

/-- healthd.go:262-279,316-320 and api.go:74-83: merge a list of aggregations, in order, into a new one. -/
def mergeAll (s : Time) (l : List IntAgg) : IntAgg := l.foldl IntAgg.merge (IntAgg.new s)

theorem mergeAll_snoc (s : Time) (l : List IntAgg) (b : IntAgg) : mergeAll s (l ++ [b]) = (mergeAll s l).merge b := by
  simp [mergeAll]

theorem mergeAll_wf (s : Time) (l : List IntAgg) (h : ∀ b ∈ l, b.Wf) : (mergeAll s l).Wf := by
  induction l using snocInduction with
  | nil => exact .new s
  | snoc l b ih => rw [mergeAll_snoc]; exact (ih (fun x hx => h x (by simp [hx]))).merge (h b (by simp))

theorem mergeAll_start (s : Time) (l : List IntAgg) : (mergeAll s l).start = s := by
  induction l using snocInduction with
  | nil => rfl
  | snoc l b ih => rw [mergeAll_snoc]; exact ih

theorem sumI_snoc (l : List (Option Int)) (x : Option Int) : sumI (l ++ [x]) = sumI [sumI l, x] := by
  rw [sumI_pair]
  unfold sumI
  rw [List.filterMap_append]
  generalize l.filterMap id = xs
  cases x with
  | none =>
    have : ([none] : List (Option Int)).filterMap id = [] := rfl
    rw [this, List.append_nil]
    by_cases h : xs = [] <;> simp [h]
  | some y =>
    have : ([some y] : List (Option Int)).filterMap id = [y] := rfl
    rw [this]
    by_cases h : xs = [] <;> simp [h]

theorem sumI_pair_congr {x x' y : Option Int} (h : x.map i64 = x'.map i64) : sumI [x, y] = sumI [x', y] := by
  rw [sumI_pair, sumI_pair]
  cases x <;> cases x' <;> cases y <;> simp at h ⊢
  · exact h
  · exact i64_congr h

theorem sumI_map_i64 (l : List (Option Int)) : (sumI l).map i64 = sumI l := by
  unfold sumI; split <;> simp

theorem value_mergeAll (s : Time) (l : List IntAgg) (h : ∀ b ∈ l, b.Wf) (c : Counter) :
    (value (mergeAll s l) c).map i64 = sumI (l.map (fun b => value b c)) := by
  induction l using snocInduction with
  | nil => cases c <;> rfl
  | snoc l b ih =>
    have ih := ih (fun x hx => h x (by simp [hx]))
    rw [mergeAll_snoc, value_merge _ _ (h b (by simp)), List.map_append, List.map_cons, List.map_nil, sumI_snoc]
    apply sumI_pair_congr
    rw [ih, sumI_map_i64]

theorem sumI_perm {l l' : List (Option Int)} (h : l.Perm l') : sumI l = sumI l' := by
  have hp : (l.filterMap id).Perm (l'.filterMap id) := h.filterMap id
  unfold sumI
  have h1 : l.filterMap id = [] ↔ l'.filterMap id = [] := by
    constructor <;> intro h0
    · rw [h0] at hp; exact hp.nil_eq.symm
    · rw [h0] at hp; exact hp.eq_nil
  have h2 : (l.filterMap id).sum = (l'.filterMap id).sum := by
    generalize l.filterMap id = a at hp
    generalize l'.filterMap id = b at hp
    induction hp with
    | nil => rfl
    | cons x _ ih => simp [ih]
    | swap x y l => simp; omega
    | trans _ _ ih1 ih2 => exact ih1.trans ih2
  simp only [h1, h2]
