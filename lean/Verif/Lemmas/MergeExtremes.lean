import Verif.Lemmas.Counters
/-! Minima, maxima, gauges and map orders under merge. -/
open Spec

theorem summary_merge (a b : IntAgg) (hb : b.Wf) (x : Extreme) :
    summary (a.merge b) x =
      match summary a x, summary b x with
      | none, none => none
      | some t, none => some t
      | none, some t => some t
      | some t, some u => some (t.merge u) := by
  have hT := fun k => mergeTimers_get? a.maps.timers b.maps.timers hb.maps.timers k
  have hJ := fun k => mergeJobs_get? a.jobs b.jobs hb.jobs hb.jobMaps k
  cases x with
  | timer ev =>
    simp only [summary, IntAgg.merge, AggMaps.merge, hT]
    cases a.maps.timers.get? ev <;> cases b.maps.timers.get? ev <;> simp [mergeOpt]
  | jobTimer j ev =>
    simp only [summary, IntAgg.merge, hJ]
    cases h2 : b.jobs.get? j with
    | none => cases a.jobs.get? j with
      | none => simp
      | some w => simp; cases w.maps.timers.get? ev <;> simp
    | some v =>
      have hv := hb.jobMaps _ (GoMap.mem_of_get? h2)
      cases a.jobs.get? j with
      | none => simp [mergeOpt]; cases v.maps.timers.get? ev <;> simp
      | some w =>
        simp only [mergeOpt, JobAgg.merge, AggMaps.merge, Option.bind_some, mergeTimers_get? _ _ hv.timers]
        cases w.maps.timers.get? ev <;> cases v.maps.timers.get? ev <;> simp
  | job j =>
    simp only [summary, IntAgg.merge, hJ]
    cases a.jobs.get? j <;> cases b.jobs.get? j <;> simp [mergeOpt, JobAgg.merge]

theorem gauge_merge (a b : IntAgg) (hb : b.Wf) (g : Gauge) :
    gaugeOf (a.merge b) g = (gaugeOf b g).or (gaugeOf a g) := by
  have hG := fun k => mergeGauges_get? a.maps.gauges b.maps.gauges hb.maps.gauges k
  have hJ := fun k => mergeJobs_get? a.jobs b.jobs hb.jobs hb.jobMaps k
  cases g with
  | gauge ev => simp only [gaugeOf, IntAgg.merge, AggMaps.merge, hG]
  | jobGauge j ev =>
    simp only [gaugeOf, IntAgg.merge, hJ]
    cases h2 : b.jobs.get? j with
    | none => cases a.jobs.get? j <;> simp
    | some v =>
      have hv := hb.jobMaps _ (GoMap.mem_of_get? h2)
      cases a.jobs.get? j with
      | none => simp [mergeOpt]
      | some w =>
        simp only [mergeOpt, JobAgg.merge, AggMaps.merge, Option.bind_some, mergeGauges_get? _ _ hv.gauges]

theorem minI_snoc (l : List (Option Int)) (x : Option Int) : minI (l ++ [x]) = minI [minI l, x] := by
  unfold minI
  rw [List.filterMap_append]
  generalize l.filterMap id = xs
  cases x with
  | none =>
    have : ([none] : List (Option Int)).filterMap id = [] := rfl
    rw [this, List.append_nil]
    cases h : xs.min? <;> simp [List.min?]
  | some y =>
    have : ([some y] : List (Option Int)).filterMap id = [y] := rfl
    rw [this]
    cases xs with
    | nil => simp [List.min?]
    | cons a t => simp [List.min?, List.foldl_append]

theorem maxI_snoc (l : List (Option Int)) (x : Option Int) : maxI (l ++ [x]) = maxI [maxI l, x] := by
  unfold maxI
  rw [List.filterMap_append]
  generalize l.filterMap id = xs
  cases x with
  | none =>
    have : ([none] : List (Option Int)).filterMap id = [] := rfl
    rw [this, List.append_nil]
    cases h : xs.max? <;> simp [List.max?]
  | some y =>
    have : ([some y] : List (Option Int)).filterMap id = [y] := rfl
    rw [this]
    cases xs with
    | nil => simp [List.max?]
    | cons a t => simp [List.max?, List.foldl_append]

theorem minI_pair (x y : Option Int) : minI [x, y] =
    match x, y with
    | none, none => none
    | some x, none => some x
    | none, some y => some y
    | some x, some y => some (min x y) := by
  cases x <;> cases y <;> simp [minI, List.min?]

theorem maxI_pair (x y : Option Int) : maxI [x, y] =
    match x, y with
    | none, none => none
    | some x, none => some x
    | none, some y => some y
    | some x, some y => some (max x y) := by
  cases x <;> cases y <;> simp [maxI, List.max?]

theorem minI_perm {l l' : List (Option Int)} (h : l.Perm l') : minI l = minI l' := by
  have hp : (l.filterMap id).Perm (l'.filterMap id) := h.filterMap id
  unfold minI
  generalize l.filterMap id = a at hp
  generalize l'.filterMap id = b at hp
  cases hb : b.min? with
  | none =>
    have : b = [] := List.min?_eq_none_iff.1 hb
    subst this; rw [hp.eq_nil]; rfl
  | some m =>
    rw [List.min?_eq_some_iff] at *
    exact ⟨hp.mem_iff.2 hb.1, fun x hx => hb.2 x (hp.mem_iff.1 hx)⟩

theorem maxI_perm {l l' : List (Option Int)} (h : l.Perm l') : maxI l = maxI l' := by
  have hp : (l.filterMap id).Perm (l'.filterMap id) := h.filterMap id
  unfold maxI
  generalize l.filterMap id = a at hp
  generalize l'.filterMap id = b at hp
  cases hb : b.max? with
  | none =>
    have : b = [] := List.max?_eq_none_iff.1 hb
    subst this; rw [hp.eq_nil]; rfl
  | some m =>
    rw [List.max?_eq_some_iff] at *
    exact ⟨hp.mem_iff.2 hb.1, fun x hx => hb.2 x (hp.mem_iff.1 hx)⟩

theorem min_merge (a b : IntAgg) (hb : b.Wf) (x : Extreme) :
    (summary (a.merge b) x).map (·.nanosMin) =
      minI [(summary a x).map (·.nanosMin), (summary b x).map (·.nanosMin)] := by
  rw [summary_merge a b hb, minI_pair]
  cases summary a x <;> cases summary b x <;> simp [TimerAgg.merge]
  omega

theorem max_merge (a b : IntAgg) (hb : b.Wf) (x : Extreme) :
    (summary (a.merge b) x).map (·.nanosMax) =
      maxI [(summary a x).map (·.nanosMax), (summary b x).map (·.nanosMax)] := by
  rw [summary_merge a b hb, maxI_pair]
  cases summary a x <;> cases summary b x <;> simp [TimerAgg.merge]
  omega

theorem min_mergeAll (s : Time) (l : List IntAgg) (h : ∀ b ∈ l, b.Wf) (x : Extreme) :
    (summary (mergeAll s l) x).map (·.nanosMin) = minI (l.map (fun b => (summary b x).map (·.nanosMin))) := by
  induction l using snocInduction with
  | nil => cases x <;> rfl
  | snoc l b ih =>
    have ih := ih (fun x hx => h x (by simp [hx]))
    rw [mergeAll_snoc, min_merge _ _ (h b (by simp)), List.map_append, List.map_cons, List.map_nil, minI_snoc, ih]

theorem max_mergeAll (s : Time) (l : List IntAgg) (h : ∀ b ∈ l, b.Wf) (x : Extreme) :
    (summary (mergeAll s l) x).map (·.nanosMax) = maxI (l.map (fun b => (summary b x).map (·.nanosMax))) := by
  induction l using snocInduction with
  | nil => cases x <;> rfl
  | snoc l b ih =>
    have ih := ih (fun x hx => h x (by simp [hx]))
    rw [mergeAll_snoc, max_merge _ _ (h b (by simp)), List.map_append, List.map_cons, List.map_nil, maxI_snoc, ih]

theorem gauge_mergeAll (s : Time) (l : List IntAgg) (h : ∀ b ∈ l, b.Wf) (g : Gauge) :
    gaugeOf (mergeAll s l) g = (l.filterMap (fun b => gaugeOf b g)).getLast? := by
  induction l using snocInduction with
  | nil => cases g <;> rfl
  | snoc l b ih =>
    have ih := ih (fun x hx => h x (by simp [hx]))
    rw [mergeAll_snoc, gauge_merge _ _ (h b (by simp)), List.filterMap_append, ih]
    cases hb : gaugeOf b g <;> simp [hb]

/-! ### map iteration orders -/

theorem Spec.SameMaps.refl (a : AggMaps) : SameMaps a a := ⟨.refl _, .refl _, .refl _, .refl _⟩

theorem Spec.SameValues.job_get {a b : IntAgg} (h : SameValues a b) (hw : a.Wf) (j : Str) :
    match a.jobs.get? j, b.jobs.get? j with
    | none, none => True
    | some x, some y => SameJob x y ∧ x.maps.Wf
    | _, _ => False := by
  obtain ⟨js, h1, h2⟩ := h.jobs
  have hjw := hw.jobs.perm h1
  rw [GoMap.get?_perm hw.jobs h1]
  have hmaps : ∀ p ∈ js, p.2.maps.Wf := fun p hp => hw.jobMaps p (h1.mem_iff.2 hp)
  clear h1 hw h hjw
  generalize b.jobs = bj at *
  induction h2 with
  | nil => simp
  | @cons p q js bj hpq _ ih =>
    obtain ⟨k, x⟩ := p; obtain ⟨k', y⟩ := q
    obtain ⟨h3, h4⟩ := hpq
    simp only at h3 h4; subst h3
    simp only [GoMap.get?_cons]
    by_cases hk : k = j
    · simp only [hk, if_true]; exact ⟨h4, hmaps (k, x) (by simp)⟩
    · simp only [hk, if_false]; exact ih (fun p hp => hmaps p (by simp [hp]))

theorem Spec.SameValues.value {a b : IntAgg} (h : SameValues a b) (hw : a.Wf) (c : Counter) : value a c = value b c := by
  cases c with
  | event ev => exact GoMap.get?_perm hw.maps.events h.maps.events ev
  | error ev => simp only [Spec.value]; rw [GoMap.get?_perm hw.maps.eventErrs h.maps.eventErrs]
  | timerCount ev => simp only [Spec.value]; rw [GoMap.get?_perm hw.maps.timers h.maps.timers]
  | timerSum ev => simp only [Spec.value]; rw [GoMap.get?_perm hw.maps.timers h.maps.timers]
  | jobEvent j ev =>
    have := h.job_get hw j
    simp only [Spec.value]
    cases h1 : a.jobs.get? j <;> cases h2 : b.jobs.get? j <;> rw [h1, h2] at this <;> simp at this ⊢
    exact GoMap.get?_perm this.2.events this.1.maps.events ev
  | jobError j ev =>
    have := h.job_get hw j
    simp only [Spec.value]
    cases h1 : a.jobs.get? j <;> cases h2 : b.jobs.get? j <;> rw [h1, h2] at this <;> simp at this ⊢
    rw [GoMap.get?_perm this.2.eventErrs this.1.maps.eventErrs ev]
  | jobTimerCount j ev =>
    have := h.job_get hw j
    simp only [Spec.value]
    cases h1 : a.jobs.get? j <;> cases h2 : b.jobs.get? j <;> rw [h1, h2] at this <;> simp at this ⊢
    rw [GoMap.get?_perm this.2.timers this.1.maps.timers ev]
  | jobTimerSum j ev =>
    have := h.job_get hw j
    simp only [Spec.value]
    cases h1 : a.jobs.get? j <;> cases h2 : b.jobs.get? j <;> rw [h1, h2] at this <;> simp at this ⊢
    rw [GoMap.get?_perm this.2.timers this.1.maps.timers ev]
  | jobCount j =>
    have := h.job_get hw j
    simp only [Spec.value]
    cases h1 : a.jobs.get? j <;> cases h2 : b.jobs.get? j <;> rw [h1, h2] at this <;> simp at this ⊢
    rw [this.1.timer]
  | jobSum j =>
    have := h.job_get hw j
    simp only [Spec.value]
    cases h1 : a.jobs.get? j <;> cases h2 : b.jobs.get? j <;> rw [h1, h2] at this <;> simp at this ⊢
    rw [this.1.timer]
  | jobSuccess j =>
    have := h.job_get hw j
    simp only [Spec.value]
    cases h1 : a.jobs.get? j <;> cases h2 : b.jobs.get? j <;> rw [h1, h2] at this <;> simp at this ⊢
    exact this.1.countSuccess
  | jobValidationError j =>
    have := h.job_get hw j
    simp only [Spec.value]
    cases h1 : a.jobs.get? j <;> cases h2 : b.jobs.get? j <;> rw [h1, h2] at this <;> simp at this ⊢
    exact this.1.countValidationError
  | jobPanic j =>
    have := h.job_get hw j
    simp only [Spec.value]
    cases h1 : a.jobs.get? j <;> cases h2 : b.jobs.get? j <;> rw [h1, h2] at this <;> simp at this ⊢
    exact this.1.countPanic
  | jobErrors j =>
    have := h.job_get hw j
    simp only [Spec.value]
    cases h1 : a.jobs.get? j <;> cases h2 : b.jobs.get? j <;> rw [h1, h2] at this <;> simp at this ⊢
    exact this.1.countError
  | jobJunk j =>
    have := h.job_get hw j
    simp only [Spec.value]
    cases h1 : a.jobs.get? j <;> cases h2 : b.jobs.get? j <;> rw [h1, h2] at this <;> simp at this ⊢
    exact this.1.countJunk

theorem Spec.SameValues.summary {a b : IntAgg} (h : SameValues a b) (hw : a.Wf) (x : Extreme) :
    summary a x = summary b x := by
  cases x with
  | timer ev => exact GoMap.get?_perm hw.maps.timers h.maps.timers ev
  | jobTimer j ev =>
    have := h.job_get hw j
    simp only [Spec.summary]
    cases h1 : a.jobs.get? j <;> cases h2 : b.jobs.get? j <;> rw [h1, h2] at this <;> simp at this ⊢
    exact GoMap.get?_perm this.2.timers this.1.maps.timers ev
  | job j =>
    have := h.job_get hw j
    simp only [Spec.summary]
    cases h1 : a.jobs.get? j <;> cases h2 : b.jobs.get? j <;> rw [h1, h2] at this <;> simp at this ⊢
    exact this.1.timer

theorem Spec.SameMaps.wf {a b : AggMaps} (h : SameMaps a b) (hw : a.Wf) : b.Wf :=
  ⟨hw.timers.perm h.timers, hw.gauges.perm h.gauges, hw.events.perm h.events, hw.eventErrs.perm h.eventErrs⟩

theorem Spec.SameValues.wf {a b : IntAgg} (h : SameValues a b) (hw : a.Wf) : b.Wf := by
  obtain ⟨js, h1, h2⟩ := h.jobs
  have hkeys : js.map (·.1) = b.jobs.map (·.1) := by
    clear h1
    generalize b.jobs = bj at *
    induction h2 with
    | nil => rfl
    | cons hpq _ ih => simp [hpq.1, ih]
  refine ⟨?_, h.maps.wf hw.maps, ?_⟩
  · have := hw.jobs.perm h1
    unfold GoMap.Wf GoMap.keys at *
    rw [← hkeys]; exact this
  · have hjs : ∀ p ∈ js, p.2.maps.Wf := fun p hp => hw.jobMaps p (h1.mem_iff.2 hp)
    clear h1 hkeys
    generalize b.jobs = bj at *
    induction h2 with
    | nil => simp
    | cons hpq _ ih =>
      intro q hq
      rcases List.mem_cons.1 hq with hq | hq
      · subst hq; exact hpq.2.maps.wf (hjs _ (by simp))
      · exact ih (fun p hp => hjs p (by simp [hp])) q hq
