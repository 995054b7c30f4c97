import Verif.Lemmas.MergeExtremes
/-!
# Properties C20–C23, C26: merging aggregations
`IntAgg.Wf` says that every Go map has pairwise different keys: true of every real aggregation (and proved for all that
the model builds: `aggOf_wf`, `mergeAll_wf`).
-/
open Spec

/-- every counter is an int64 value. -/
def InRange (a : IntAgg) : Prop := ∀ c, (value a c).map i64 = value a c

theorem InRange.aggOf (s : Time) (es : List Emit) : InRange (aggOf s es) := by
  intro c; rw [value_aggOf]; exact sumI_map_i64 _

theorem InRange.merge {a b : IntAgg} (hb : b.Wf) (ha : InRange a) (hr : InRange b) : InRange (a.merge b) := by
  intro c
  rw [value_merge_exact a b hb c (hr c)]
  have h1 := ha c
  have h2 := hr c
  cases ha : value a c <;> cases hb : value b c <;> simp_all

theorem InRange.mergeAll (s : Time) (l : List IntAgg) (hw : ∀ b ∈ l, b.Wf) (hr : ∀ b ∈ l, InRange b) :
    InRange (mergeAll s l) := by
  induction l using snocInduction with
  | nil => intro c; cases c <;> rfl
  | snoc l b ih =>
    rw [mergeAll_snoc]
    exact InRange.merge (hw b (by simp)) (ih (fun x hx => hw x (by simp [hx])) (fun x hx => hr x (by simp [hx])))
      (hr b (by simp))

namespace Sample
/-- two processes: the first never completed job "j" in the interval. -/
def p1 : List Emit := [.event (bs "j") (bs "e"), .timing (bs "j") (bs "tm") 7, .gauge (bs "j") (bs "g") (.fin 1)]
def p2 : List Emit := [.event (bs "j") (bs "e"), .event (bs "k") (bs "e"), .timing (bs "k") (bs "tm") 3,
  .complete (bs "j") Status.success 9, .gauge (bs "k") (bs "g") (.fin 2)]
def a1 : IntAgg := aggOf ⟨60, 0⟩ p1
def a2 : IntAgg := aggOf ⟨60, 0⟩ p2
example : a1.Wf ∧ a2.Wf ∧ InRange a1 ∧ InRange a2 := ⟨aggOf_wf _ _, aggOf_wf _ _, .aggOf _ _, .aggOf _ _⟩
example : value (a1.merge a2) (.event (bs "e")) = some 3 ∧ value (a1.merge a2) (.jobSuccess (bs "j")) = some 1 ∧
    value (a1.merge a2) (.jobEvent (bs "k") (bs "e")) = some 1 ∧ value (a1.merge a2) (.event (bs "x")) = none ∧
    gaugeOf (a1.merge a2) (.gauge (bs "g")) = some (.fin 2) := by decide +kernel
end Sample

/-! ## C20 -/

/-- C20: after `a.Merge(b)`, every counter (interval-wide and per job) is the int64 sum of the two, present iff present
in one of them; b's gauges override a's; a's start time is kept; the serial number goes up by one. -/
theorem C20_merge_adds (a b : IntAgg) (hb : b.Wf) :
    (∀ c, (value (a.merge b) c).map i64 = sumI [value a c, value b c]) ∧
    (∀ g, gaugeOf (a.merge b) g = (gaugeOf b g).or (gaugeOf a g)) ∧
    (a.merge b).start = a.start ∧ (a.merge b).serial = i64 (a.serial + 1) :=
  ⟨value_merge a b hb, gauge_merge a b hb, rfl, rfl⟩

/-- C20, keys: a counter, summary or gauge is present after the merge iff it was present before in `a` or in `b`. -/
theorem C20_merge_keys (a b : IntAgg) (hb : b.Wf) :
    (∀ c, (value (a.merge b) c).isSome = ((value a c).isSome || (value b c).isSome)) ∧
    (∀ g, (gaugeOf (a.merge b) g).isSome = ((gaugeOf a g).isSome || (gaugeOf b g).isSome)) ∧
    (∀ j, ((a.merge b).jobs.get? j).isSome = ((a.jobs.get? j).isSome || (b.jobs.get? j).isSome)) := by
  refine ⟨?_, ?_, ?_⟩
  · intro c
    have h := congrArg Option.isSome (value_merge a b hb c)
    rw [Option.isSome_map, sumI_pair] at h
    rw [h]
    cases value a c <;> cases value b c <;> rfl
  · intro g
    rw [gauge_merge a b hb]
    cases gaugeOf a g <;> cases gaugeOf b g <;> rfl
  · intro j
    show ((mergeJobs a.jobs b.jobs).get? j).isSome = _
    rw [mergeJobs_get? _ _ hb.jobs hb.jobMaps]
    cases a.jobs.get? j <;> cases b.jobs.get? j <;> rfl

/-! ## C21 -/

theorem min?_append_ne {xs ys : List Int} {m : Int} (h : Least m (xs ++ ys)) : m ∈ xs ++ ys := h.1

/-- the summary of the durations emitted by one process. -/
theorem summary_aggOf (s : Time) (es : List Emit) (x : Extreme) :
    match summary (aggOf s es) x with
    | none => samples es x = []
    | some t => Summarises t (samples es x) ∧ (samples es x = [] → ∃ j, x = .job j) := by
  cases x with
  | timer ev =>
    simp only [summary, samples, aggOf_maps, mapsOf_timers]
    by_cases h : timings ev es = []
    · simp [h]
    · simp only [h, if_false]
      exact ⟨timerOf_summarises _, by simp⟩
  | jobTimer j ev =>
    simp only [summary, samples, aggOf_jobs]
    by_cases h : ofJob j es = []
    · simp [h, timings]
    · simp only [h, if_false, Option.bind_some, jobAggOf_maps, mapsOf_timers]
      by_cases h2 : timings ev (ofJob j es) = []
      · simp [h2]
      · simp only [h2, if_false]
        exact ⟨timerOf_summarises _, by simp⟩
  | job j =>
    simp only [summary, samples, aggOf_jobs]
    by_cases h : ofJob j es = []
    · simp [h, completions]
    · simp only [h, if_false, Option.map_some, jobAggOf_timer]
      exact ⟨timerOf_summarises _, fun _ => ⟨j, rfl⟩⟩

theorem samples_flatten (ess : List (List Emit)) (x : Extreme) :
    samples ess.flatten x = (ess.map (fun es => samples es x)).flatten := by
  induction ess with
  | nil => cases x <;> rfl
  | cons es t ih =>
    simp only [List.map_cons, List.flatten_cons, ← ih]
    cases x <;> simp [samples, timings, completions, ofJob, List.filterMap_append, List.filter_append]

/-- Minimum and maximum shown for `x` are those of all the durations `xs`. -/
def ExtremesOf (a : IntAgg) (x : Extreme) (xs : List Int) : Prop :=
  match summary a x with
  | none => xs = []
  | some t => xs ≠ [] ∧ Least t.nanosMin xs ∧ Greatest t.nanosMax xs

/-- the general form: merging the aggregations of any number of processes gives the extremes of all samples, provided
every process that has the summary has at least one sample in it. -/
theorem extremes_mergeAll (s : Time) (ess : List (List Emit)) (x : Extreme)
    (hlen : (samples ess.flatten x).length < 2^63)
    (hne : ∀ es ∈ ess, (summary (aggOf s es) x).isSome → samples es x ≠ []) :
    ExtremesOf (mergeAll s (ess.map (aggOf s))) x (samples ess.flatten x) := by
  have hw : ∀ b ∈ ess.map (aggOf s), b.Wf := by
    intro b hb; obtain ⟨es, _, rfl⟩ := List.mem_map.1 hb; exact aggOf_wf _ _
  have hmin := min_mergeAll s _ hw x
  have hmax := max_mergeAll s _ hw x
  rw [samples_flatten] at *
  have hlen1 : ∀ es ∈ ess, (samples es x).length < 2^63 := by
    intro es he
    have : (samples es x).length ≤ ((ess.map (fun es => samples es x)).flatten).length := by
      exact (List.sublist_flatten_of_mem (List.mem_map.2 ⟨es, he, rfl⟩ :
        samples es x ∈ ess.map (fun es => samples es x))).length_le
    omega
  unfold ExtremesOf
  cases hs : summary (mergeAll s (ess.map (aggOf s))) x with
  | none =>
    rw [hs] at hmin
    simp only [Option.map_none] at hmin
    simp only
    rw [List.flatten_eq_nil_iff]
    intro l hl
    obtain ⟨es, he, rfl⟩ := List.mem_map.1 hl
    have h1 := summary_aggOf s es x
    cases h2 : summary (aggOf s es) x with
    | none => rw [h2] at h1; exact h1
    | some t =>
      exfalso
      have h3 := List.min?_eq_none_iff.1 hmin.symm
      have : t.nanosMin ∈ ((ess.map (aggOf s)).map (fun b => (summary b x).map (·.nanosMin))).filterMap id := by
        rw [List.mem_filterMap]
        exact ⟨some t.nanosMin, List.mem_map.2 ⟨aggOf s es, List.mem_map.2 ⟨es, he, rfl⟩, by simp [h2]⟩, rfl⟩
      rw [h3] at this; simp at this
  | some t =>
    rw [hs] at hmin hmax
    simp only [Option.map_some] at hmin hmax
    have h1 := List.min?_eq_some_iff.1 hmin.symm
    have h2 := List.max?_eq_some_iff.1 hmax.symm
    -- every element of a host is summarised by that host
    have host : ∀ es ∈ ess, ∀ v ∈ samples es x, ∃ u, summary (aggOf s es) x = some u ∧ u.nanosMin ≤ v ∧ v ≤ u.nanosMax := by
      intro es he v hv
      have h3 := summary_aggOf s es x
      cases h4 : summary (aggOf s es) x with
      | none => rw [h4] at h3; rw [h3] at hv; simp at hv
      | some u =>
        rw [h4] at h3
        have hne' : samples es x ≠ [] := by intro h0; rw [h0] at hv; simp at hv
        exact ⟨u, rfl, (h3.1.min hne' (hlen1 es he)).2 v hv, (h3.1.max hne' (hlen1 es he)).2 v hv⟩
    have inmin : ∀ es ∈ ess, ∀ u, summary (aggOf s es) x = some u →
        u.nanosMin ∈ ((ess.map (aggOf s)).map (fun b => (summary b x).map (·.nanosMin))).filterMap id := by
      intro es he u hu
      rw [List.mem_filterMap]
      exact ⟨some u.nanosMin, List.mem_map.2 ⟨aggOf s es, List.mem_map.2 ⟨es, he, rfl⟩, by simp [hu]⟩, rfl⟩
    have inmax : ∀ es ∈ ess, ∀ u, summary (aggOf s es) x = some u →
        u.nanosMax ∈ ((ess.map (aggOf s)).map (fun b => (summary b x).map (·.nanosMax))).filterMap id := by
      intro es he u hu
      rw [List.mem_filterMap]
      exact ⟨some u.nanosMax, List.mem_map.2 ⟨aggOf s es, List.mem_map.2 ⟨es, he, rfl⟩, by simp [hu]⟩, rfl⟩
    have hmin_mem : t.nanosMin ∈ (ess.map (fun es => samples es x)).flatten := by
      obtain ⟨o, ho, ho2⟩ := List.mem_filterMap.1 h1.1
      obtain ⟨b, hb, hb2⟩ := List.mem_map.1 ho
      obtain ⟨es, he, rfl⟩ := List.mem_map.1 hb
      cases h4 : summary (aggOf s es) x with
      | none => rw [h4] at hb2; rw [← hb2] at ho2; simp at ho2
      | some u =>
        rw [h4] at hb2
        rw [← hb2] at ho2
        simp only [Option.map_some, id, Option.some.injEq] at ho2
        have h3 := summary_aggOf s es x
        rw [h4] at h3
        have := (h3.1.min (hne es he (by simp [h4])) (hlen1 es he)).1
        rw [List.mem_flatten]
        exact ⟨_, List.mem_map.2 ⟨es, he, rfl⟩, ho2 ▸ this⟩
    have hmax_mem : t.nanosMax ∈ (ess.map (fun es => samples es x)).flatten := by
      obtain ⟨o, ho, ho2⟩ := List.mem_filterMap.1 h2.1
      obtain ⟨b, hb, hb2⟩ := List.mem_map.1 ho
      obtain ⟨es, he, rfl⟩ := List.mem_map.1 hb
      cases h4 : summary (aggOf s es) x with
      | none => rw [h4] at hb2; rw [← hb2] at ho2; simp at ho2
      | some u =>
        rw [h4] at hb2
        rw [← hb2] at ho2
        simp only [Option.map_some, id, Option.some.injEq] at ho2
        have h3 := summary_aggOf s es x
        rw [h4] at h3
        have := (h3.1.max (hne es he (by simp [h4])) (hlen1 es he)).1
        rw [List.mem_flatten]
        exact ⟨_, List.mem_map.2 ⟨es, he, rfl⟩, ho2 ▸ this⟩
    refine ⟨fun h0 => by rw [h0] at hmin_mem; simp at hmin_mem, ⟨hmin_mem, ?_⟩, ⟨hmax_mem, ?_⟩⟩
    · intro v hv
      obtain ⟨l, hl, hv⟩ := List.mem_flatten.1 hv
      obtain ⟨es, he, rfl⟩ := List.mem_map.1 hl
      obtain ⟨u, hu, hu1, _⟩ := host es he v hv
      exact Int.le_trans (h1.2 _ (inmin es he u hu)) hu1
    · intro v hv
      obtain ⟨l, hl, hv⟩ := List.mem_flatten.1 hv
      obtain ⟨es, he, rfl⟩ := List.mem_map.1 hl
      obtain ⟨u, hu, _, hu2⟩ := host es he v hv
      exact Int.le_trans hu2 (h2.2 _ (inmax es he u hu))

/-- C21 for timers (interval-wide and per job): after merging the aggregations of any number of processes, min and max
are those of all durations emitted by all of them. -/
theorem C21_timer_extremes (s : Time) (ess : List (List Emit)) (x : Extreme) (hx : ∀ j, x ≠ .job j)
    (hlen : (samples ess.flatten x).length < 2^63) :
    ExtremesOf (mergeAll s (ess.map (aggOf s))) x (samples ess.flatten x) := by
  apply extremes_mergeAll s ess x hlen
  intro es _ hs h0
  have h1 := summary_aggOf s es x
  cases h2 : summary (aggOf s es) x with
  | none => rw [h2] at hs; simp at hs
  | some t =>
    rw [h2] at h1
    obtain ⟨j, hj⟩ := h1.2 h0
    exact hx j hj

/-- C21 for job durations, partial: needs that every process in which the job appears completed it at least once.
The full claim is false, see `C21_job_extremes_false`. -/
theorem C21_job_extremes_partial (s : Time) (ess : List (List Emit)) (j : Str)
    (hlen : (samples ess.flatten (.job j)).length < 2^63)
    (hne : ∀ es ∈ ess, ofJob j es ≠ [] → completions (ofJob j es) ≠ []) :
    ExtremesOf (mergeAll s (ess.map (aggOf s))) (.job j) (samples ess.flatten (.job j)) := by
  apply extremes_mergeAll s ess _ hlen
  intro es he hs
  simp only [summary, aggOf_jobs] at hs
  by_cases h : ofJob j es = []
  · simp [h] at hs
  · simpa [samples] using hne es he h

/-- C21 is false for job durations: job "j" completed once, after 9 ns, on one process, while on another process it only
emitted an event in this interval; the merged minimum shown is 0. -/
theorem C21_job_extremes_false : ∃ (s : Time) (ess : List (List Emit)) (j : Str),
    (samples ess.flatten (.job j)) = [9] ∧
    (summary (mergeAll s (ess.map (aggOf s))) (.job j)).map (·.nanosMin) = some 0 ∧
    ¬ ExtremesOf (mergeAll s (ess.map (aggOf s))) (.job j) (samples ess.flatten (.job j)) := by
  refine ⟨⟨60, 0⟩, [Sample.p1, Sample.p2], bs "j", by decide +kernel, by decide +kernel, ?_⟩
  intro h
  have h1 : samples [Sample.p1, Sample.p2].flatten (.job (bs "j")) = [9] := by decide +kernel
  have h2 : (summary (mergeAll ⟨60, 0⟩ ([Sample.p1, Sample.p2].map (aggOf ⟨60, 0⟩))) (.job (bs "j"))).map (·.nanosMin)
      = some 0 := by decide +kernel
  unfold ExtremesOf at h
  rw [h1] at h
  cases hs : summary (mergeAll ⟨60, 0⟩ ([Sample.p1, Sample.p2].map (aggOf ⟨60, 0⟩))) (.job (bs "j")) with
  | none => rw [hs] at h2; simp at h2
  | some t =>
    rw [hs] at h h2
    simp only [Option.map_some, Option.some.injEq] at h2
    have := h.2.1.1
    rw [h2] at this
    simp at this

/-- the hypotheses of the partial theorem hold in a non-trivial case. -/
example : ExtremesOf (mergeAll ⟨60, 0⟩ ([Sample.p2, Sample.p2 ++ [.complete (bs "j") Status.error 4]].map (aggOf ⟨60, 0⟩)))
    (.job (bs "j")) [9, 9, 4] := by
  have h := C21_job_extremes_partial ⟨60, 0⟩ [Sample.p2, Sample.p2 ++ [.complete (bs "j") Status.error 4]] (bs "j")
    (by decide +kernel) (by decide +kernel)
  have e : samples [Sample.p2, Sample.p2 ++ [.complete (bs "j") Status.error 4]].flatten (.job (bs "j")) = [9, 9, 4] := by
    decide +kernel
  rw [e] at h
  exact h

/-! ## C22 -/

theorem foldl_copy {V : Type} (step : GoMap Str V → Str × V → GoMap Str V) (f : V → V)
    (hstep : ∀ m p, m.get? p.1 = none → step m p = m.set p.1 (f p.2)) (frm : GoMap Str V) (m0 : GoMap Str V)
    (h : (m0.keys ++ GoMap.keys frm).Nodup) :
    frm.foldl step m0 = m0 ++ frm.map (fun p => (p.1, f p.2)) := by
  induction frm generalizing m0 with
  | nil => simp
  | cons p t ih =>
    obtain ⟨k, v⟩ := p
    have hk : k ∉ m0.keys := by
      intro hk
      rw [List.nodup_append] at h
      exact h.2.2 k hk k (by simp [GoMap.keys]) rfl
    rw [List.foldl_cons, hstep _ _ (by rw [GoMap.get?_eq_none_iff]; exact hk), GoMap.set_of_not_mem hk, ih]
    · simp
    · simpa [GoMap.keys] using h

/-- C22: merging into a fresh aggregation copies every map, entry for entry. -/
theorem C22_merge_into_new (b : IntAgg) (hw : b.Wf) (hr : InRange b) :
    ((IntAgg.new b.start).merge b).start = b.start ∧
    ((IntAgg.new b.start).merge b).maps = b.maps ∧
    ((IntAgg.new b.start).merge b).jobs = b.jobs := by
  refine ⟨rfl, ?_, ?_⟩
  · simp only [IntAgg.merge, IntAgg.new, AggMaps.merge, AggMaps.init]
    have hE : mergeEvents [] b.maps.events = b.maps.events := by
      unfold mergeEvents
      rw [foldl_copy _ i64 (fun m p hp => by obtain ⟨a, c⟩ := p; simp only at hp ⊢; simp [GoMap.getD, hp]) _ _
        (by simpa [GoMap.keys, GoMap.Wf] using hw.maps.events)]
      simp only [List.nil_append]
      conv_rhs => rw [← List.map_id b.maps.events]
      apply List.map_congr_left
      rintro ⟨k, v⟩ hp
      have h1 := hr (.event k)
      simp only [value, GoMap.get?_of_mem hw.maps.events hp, Option.map_some, Option.some.injEq] at h1
      simp [h1]
    have hG : mergeGauges [] b.maps.gauges = b.maps.gauges := by
      unfold mergeGauges
      rw [foldl_copy _ id (fun m p hp => by obtain ⟨a, c⟩ := p; rfl) _ _
        (by simpa [GoMap.keys, GoMap.Wf] using hw.maps.gauges)]
      simp
    have hT : mergeTimers [] b.maps.timers = b.maps.timers := by
      unfold mergeTimers
      rw [foldl_copy _ id (fun m p hp => by obtain ⟨a, c⟩ := p; simp only at hp ⊢; rw [hp]; rfl) _ _
        (by simpa [GoMap.keys, GoMap.Wf] using hw.maps.timers)]
      simp
    have hR : mergeErrs [] b.maps.eventErrs = b.maps.eventErrs := by
      unfold mergeErrs
      rw [foldl_copy _ id (fun m p hp => by obtain ⟨a, c⟩ := p; simp only at hp ⊢; rw [hp]; rfl) _ _
        (by simpa [GoMap.keys, GoMap.Wf] using hw.maps.eventErrs)]
      simp
    rw [hE, hG, hT, hR]
  · simp only [IntAgg.merge, IntAgg.new]
    unfold mergeJobs
    rw [foldl_copy _ JobAgg.clone (fun m p hp => by obtain ⟨a, c⟩ := p; simp only at hp ⊢; rw [hp]) _ _
      (by simpa [GoMap.keys, GoMap.Wf] using hw.jobs)]
    simp only [List.nil_append]
    conv_rhs => rw [← List.map_id b.jobs]
    apply List.map_congr_left
    rintro ⟨k, j⟩ hp
    have := hw.jobMaps _ hp
    simp only [JobAgg.clone, AggMaps.clone_eq this, id]

example : ((IntAgg.new Sample.a2.start).merge Sample.a2).jobs = Sample.a2.jobs ∧ Sample.a2.jobs.length = 2 :=
  ⟨(C22_merge_into_new _ (aggOf_wf _ _) (.aggOf _ _)).2.2, by decide +kernel⟩

/-! ## C23 -/

theorem forall₂_map_eq {α β : Type} {R : α → α → Prop} {l l' : List α} (f : α → β) (h : List.Forall₂ R l l')
    (hf : ∀ x ∈ l, ∀ y, R x y → f x = f y) : l.map f = l'.map f := by
  induction h with
  | nil => rfl
  | cons hab _ ih =>
    rw [List.map_cons, List.map_cons, hf _ (by simp) _ hab, ih (fun x hx => hf x (by simp [hx]))]

/-- C23: for any reordering of the list of aggregations and any iteration order of all their maps, every counter is the
same and every minimum and maximum is the same. -/
theorem C23_order_independent (s : Time) (l l' l'' : List IntAgg) (hw : ∀ b ∈ l, b.Wf) (hp : l.Perm l')
    (hv : List.Forall₂ SameValues l' l'') :
    (∀ c, (value (mergeAll s l) c).map i64 = (value (mergeAll s l'') c).map i64) ∧
    (∀ x, (summary (mergeAll s l) x).map (·.nanosMin) = (summary (mergeAll s l'') x).map (·.nanosMin)) ∧
    (∀ x, (summary (mergeAll s l) x).map (·.nanosMax) = (summary (mergeAll s l'') x).map (·.nanosMax)) := by
  have hw' : ∀ b ∈ l', b.Wf := fun b hb => hw b (hp.mem_iff.2 hb)
  have hw'' : ∀ b ∈ l'', b.Wf := by
    clear hp
    induction hv with
    | nil => simp
    | cons hab _ ih =>
      intro b hb
      rcases List.mem_cons.1 hb with hb | hb
      · subst hb; exact hab.wf (hw' _ (by simp))
      · exact ih (fun x hx => hw' x (by simp [hx])) b hb
  refine ⟨?_, ?_, ?_⟩
  · intro c
    rw [value_mergeAll s l hw, value_mergeAll s l'' hw'', ← forall₂_map_eq _ hv (fun x hx y h => h.value (hw' x hx) c)]
    exact sumI_perm (hp.map _)
  · intro x
    rw [min_mergeAll s l hw, min_mergeAll s l'' hw'',
      ← forall₂_map_eq _ hv (fun b hb y h => by rw [h.summary (hw' b hb) x])]
    exact minI_perm (hp.map _)
  · intro x
    rw [max_mergeAll s l hw, max_mergeAll s l'' hw'',
      ← forall₂_map_eq _ hv (fun b hb y h => by rw [h.summary (hw' b hb) x])]
    exact maxI_perm (hp.map _)

/-- C23, what a merge of many shows: sums, minima, maxima over the list, and gauges of the last one that has it. -/
theorem C23_merge_all (s : Time) (l : List IntAgg) (hw : ∀ b ∈ l, b.Wf) :
    (∀ c, (value (mergeAll s l) c).map i64 = sumI (l.map (fun b => value b c))) ∧
    (∀ x, (summary (mergeAll s l) x).map (·.nanosMin) = minI (l.map (fun b => (summary b x).map (·.nanosMin)))) ∧
    (∀ x, (summary (mergeAll s l) x).map (·.nanosMax) = maxI (l.map (fun b => (summary b x).map (·.nanosMax)))) ∧
    (∀ g, gaugeOf (mergeAll s l) g = (l.filterMap (fun b => gaugeOf b g)).getLast?) :=
  ⟨value_mergeAll s l hw, min_mergeAll s l hw, max_mergeAll s l hw, gauge_mergeAll s l hw⟩

/-- C23, exception: gauges do depend on the order, and so does the floating point sum of squares. -/
theorem C23_gauge_and_squares_order :
    (∃ s l l', l.Perm l' ∧ (∀ b ∈ l, b.Wf) ∧
      gaugeOf (mergeAll s l) (.gauge (bs "g")) ≠ gaugeOf (mergeAll s l') (.gauge (bs "g"))) ∧
    (∃ s l l', l.Perm l' ∧ (∀ b ∈ l, b.Wf) ∧
      (summary (mergeAll s l) (.timer (bs "t"))).map (·.nanosSumSquares) ≠
      (summary (mergeAll s l') (.timer (bs "t"))).map (·.nanosSumSquares)) := by
  constructor
  · refine ⟨⟨60, 0⟩, [Sample.a1, Sample.a2], [Sample.a2, Sample.a1], List.Perm.swap _ _ _, ?_, by decide +kernel⟩
    intro b hb
    simp only [List.mem_cons, List.not_mem_nil, or_false] at hb
    rcases hb with rfl | rfl <;> exact aggOf_wf _ _
  · let one := aggOf ⟨60, 0⟩ [.timing (bs "j") (bs "t") 1]
    let big := aggOf ⟨60, 0⟩ [.timing (bs "j") (bs "t") 134217728]
    refine ⟨⟨60, 0⟩, [one, one, one, big], [big, one, one, one], ?_, ?_, by decide +kernel⟩
    · exact (List.perm_append_comm (l₁ := [one, one, one]) (l₂ := [big]))
    · intro b hb
      simp only [List.mem_cons, List.not_mem_nil, or_false] at hb
      rcases hb with rfl | rfl | rfl | rfl <;> exact aggOf_wf _ _

/-! ## C26 -/

theorem contrib_flatten (ess : List (List Emit)) (c : Counter) :
    sumI (ess.map (fun es => sumI (es.map (contrib c)))) = sumI (ess.flatten.map (contrib c)) := by
  induction ess using snocInduction with
  | nil => rfl
  | snoc l es ih =>
    rw [List.map_append, List.map_cons, List.map_nil, sumI_snoc, ih, List.flatten_append, List.map_append]
    have : [es].flatten = es := by simp
    rw [this]
    generalize l.flatten.map (contrib c) = A
    generalize es.map (contrib c) = B
    induction B using snocInduction with
    | nil =>
      have h1 := sumI_map_i64 A
      rw [sumI_pair, List.append_nil]
      have h0 : sumI [] = none := rfl
      rw [h0]
      cases h : sumI A with
      | none => rfl
      | some x => rw [h] at h1; exact h1
    | snoc B x ih2 =>
      rw [sumI_snoc B x, ← List.append_assoc, sumI_snoc (A ++ B) x, ← ih2]
      simp only [sumI_pair]
      cases sumI A <;> cases sumI B <;> cases x <;> simp [Int.add_assoc]

/-- C26: splitting the emissions of an interval over any number of processes, in any way (the union of the processes'
emissions being a reordering of `es`), and merging what they report gives exactly the counters of one process that saw
all of them. -/
theorem C26_split_and_merge (s : Time) (es : List Emit) (ess : List (List Emit)) (h : es.Perm ess.flatten) (c : Counter) :
    value (mergeAll s (ess.map (aggOf s))) c = value (aggOf s es) c := by
  have hw : ∀ b ∈ ess.map (aggOf s), b.Wf := by
    intro b hb; obtain ⟨es, _, rfl⟩ := List.mem_map.1 hb; exact aggOf_wf _ _
  have hr : ∀ b ∈ ess.map (aggOf s), InRange b := by
    intro b hb; obtain ⟨es, _, rfl⟩ := List.mem_map.1 hb; exact .aggOf _ _
  rw [← InRange.mergeAll s _ hw hr c, value_mergeAll s _ hw, value_aggOf, List.map_map]
  have : (fun b => value b c) ∘ aggOf s = fun es => sumI (es.map (contrib c)) := by
    funext es; exact value_aggOf s es c
  rw [this, contrib_flatten]
  exact (sumI_perm (h.map _)).symm

example : (Sample.p2 ++ Sample.p1).Perm [Sample.p1, Sample.p2].flatten := by
  simpa using List.perm_append_comm (l₁ := Sample.p2) (l₂ := Sample.p1)
example : value (aggOf ⟨60, 0⟩ (Sample.p2 ++ Sample.p1)) (.event (bs "e")) = some 3 := by decide +kernel

/-! ## C65 -/

theorem errAt_merge (a b : IntAgg) (hb : b.Wf) (x : ErrAt) :
    errAt (a.merge b) x =
      match errAt b x with
      | none => errAt a x
      | some v => some (mergeOpt ErrorCounter.merge (errAt a x) v) := by
  cases x with
  | event ev => exact mergeErrs_get? a.maps.eventErrs b.maps.eventErrs hb.maps.eventErrs ev
  | jobEvent j ev =>
    show ((mergeJobs a.jobs b.jobs).get? j).bind _ = _
    rw [mergeJobs_get? _ _ hb.jobs hb.jobMaps]
    simp only [errAt]
    cases h2 : b.jobs.get? j with
    | none => simp
    | some v =>
      have hv := hb.jobMaps _ (GoMap.mem_of_get? h2)
      cases h1 : a.jobs.get? j with
      | none =>
        simp only [mergeOpt, Option.bind_some, Option.bind_none]
        cases v.maps.eventErrs.get? ev <;> rfl
      | some w =>
        simp only [mergeOpt, Option.bind_some]
        exact mergeErrs_get? w.maps.eventErrs v.maps.eventErrs hv.eventErrs ev

theorem errAt_aggOf (s : Time) (es : List Emit) (x : ErrAt) :
    errAt (aggOf s es) x = if errsAt es x = [] then none else some (errCounterOf (errsAt es x)) := by
  cases x with
  | event ev =>
    simp only [errAt, errsAt, aggOf_maps, mapsOf_errs]
    by_cases h : errs ev es = [] <;> simp [h]
  | jobEvent j ev =>
    simp only [errAt, errsAt, aggOf_jobs]
    by_cases h : ofJob j es = []
    · simp [h, errs]
    · simp only [h, if_false, Option.bind_some, jobAggOf_maps, mapsOf_errs]
      by_cases h : errs ev (ofJob j es) = [] <;> simp [h]

theorem RingOf.merge {ec : ErrorCounter} {xs : List Err} (h : RingOf ec (collapse xs)) (b : ErrorCounter) :
    RingOf (ec.merge b) (collapse (xs ++ b.getErrorSamples)) := by
  unfold ErrorCounter.merge ErrorCounter.getErrorSamples
  have h0 : RingOf { ec with count := i64 (ec.count + b.count) } (collapse xs) := ⟨h.len, h.idx, h.recent, h.empty⟩
  generalize ({ ec with count := i64 (ec.count + b.count) } : ErrorCounter) = e0 at h0
  clear h
  induction b.samples generalizing e0 xs with
  | nil => simpa using h0
  | cons o t ih =>
    cases o with
    | none => simpa using ih _ h0
    | some e =>
      have := ih (xs := xs ++ [e]) (e0.addError (some e)) (by rw [collapse_snoc]; exact h0.add e)
      simpa using this

/-- the errors that the merged samples are drawn from: all errors of the first process that had any, then the samples shown by
the later ones. -/
def mergedHistory (s : Time) (x : ErrAt) (runs : List (List Emit)) : List Err :=
  runs.foldl (fun h es => if h = [] then (errsAt es x).filterMap id else h ++ shown (aggOf s es) x) []

/-- C65: error samples after merging the aggregations of any number of processes: they are what one process would show that had
logged the first process' errors and then, in order, the samples shown by the others: so at most five, each of them an error
that one of the processes really logged, and none is lost while there are at most five. -/
theorem C65_merged_samples (s : Time) (runs : List (List Emit)) (x : ErrAt)
    (hnil : ∀ es ∈ runs, none ∉ errsAt es x) :
    SamplesOf (shown (mergeAll s (runs.map (aggOf s))) x) (mergedHistory s x runs) ∧
    (∀ e ∈ shown (mergeAll s (runs.map (aggOf s))) x, ∃ es ∈ runs, some e ∈ errsAt es x) := by
  have key : (match errAt (mergeAll s (runs.map (aggOf s))) x with
      | none => mergedHistory s x runs = []
      | some c => mergedHistory s x runs ≠ [] ∧ RingOf c (collapse (mergedHistory s x runs))) ∧
      ∀ c, errAt (mergeAll s (runs.map (aggOf s))) x = some c → ∀ e, some e ∈ c.samples → ∃ es ∈ runs, some e ∈ errsAt es x := by
    induction runs using snocInduction with
    | nil =>
      have h0 : errAt (mergeAll s (List.map (aggOf s) [])) x = none := by cases x <;> rfl
      rw [h0]
      exact ⟨rfl, by simp⟩
    | snoc l es ih =>
      have ih := ih (fun e he => hnil e (by simp [he]))
      have hn := hnil es (by simp)
      rw [List.map_append, List.map_cons, List.map_nil, mergeAll_snoc, errAt_merge _ _ (aggOf_wf _ _), errAt_aggOf]
      have hh : mergedHistory s x (l ++ [es]) = if mergedHistory s x l = [] then (errsAt es x).filterMap id
          else mergedHistory s x l ++ shown (aggOf s es) x := by simp [mergedHistory]
      have hsome : ((errsAt es x).filterMap id).map some = errsAt es x := by
        generalize errsAt es x = q at hn
        induction q with
        | nil => rfl
        | cons o t ih =>
          cases o with
          | none => simp at hn
          | some e => simpa using ih (by simpa using hn)
      by_cases hes : errsAt es x = []
      · simp only [hes, if_true]
        have hh2 : mergedHistory s x (l ++ [es]) = mergedHistory s x l := by
          rw [hh, shown, errAt_aggOf, hes]
          by_cases h0 : mergedHistory s x l = [] <;> simp [h0]
        rw [hh2]
        refine ⟨ih.1, fun c hc e he => ?_⟩
        obtain ⟨es', h1, h2⟩ := ih.2 c hc e he
        exact ⟨es', by simp [h1], h2⟩
      · simp only [hes, if_false]
        have hne : (errsAt es x).filterMap id ≠ [] := by
          intro h0; rw [h0] at hsome; exact hes hsome.symm
        have hring := errCounterOf_ring ((errsAt es x).filterMap id)
        rw [hsome] at hring
        have hsh : shown (aggOf s es) x = (errCounterOf (errsAt es x)).getErrorSamples := by
          simp [shown, errAt_aggOf, hes]
        rw [hh]
        cases ha : errAt (mergeAll s (l.map (aggOf s))) x with
        | none =>
          rw [ha] at ih
          simp only at ih
          rw [if_pos ih.1]
          refine ⟨⟨hne, hring⟩, ?_⟩
          intro c hc e he
          simp only [mergeOpt, Option.some.injEq] at hc
          subst hc
          rcases errCounterOf_subset _ _ he with h | h
          · cases h
          · exact ⟨es, by simp, h⟩
        | some c0 =>
          rw [ha] at ih
          simp only at ih
          rw [if_neg ih.1.1, hsh]
          refine ⟨⟨by simp [ih.1.1], ih.1.2.merge _⟩, ?_⟩
          intro c hc e he
          simp only [mergeOpt, Option.some.injEq] at hc
          subst hc
          have hsub : ∀ (q : List (Option Err)) (e0 : ErrorCounter),
              some e ∈ (q.foldl (fun ec e => if e.isSome then ec.addError e else ec) e0).samples →
                some e ∈ q ∨ some e ∈ e0.samples := by
            intro q
            induction q with
            | nil => intro e0 h; exact .inr h
            | cons o t ih =>
              intro e0 h
              rw [List.foldl_cons] at h
              rcases ih _ h with h | h
              · exact .inl (by simp [h])
              · split at h
                · rcases addError_subset _ _ _ h with h | h
                  · exact .inl (by simp [h])
                  · exact .inr h
                · exact .inr h
          rcases hsub _ _ he with h | h
          · rcases errCounterOf_subset _ _ h with h | h
            · cases h
            · exact ⟨es, by simp, h⟩
          · obtain ⟨es', h1, h2⟩ := ih.2 c0 rfl e h
            exact ⟨es', by simp [h1], h2⟩
  obtain ⟨k1, k2⟩ := key
  unfold shown
  cases hc : errAt (mergeAll s (runs.map (aggOf s))) x with
  | none =>
    rw [hc] at k1
    simp only at k1
    rw [k1]
    exact ⟨⟨by simp, ⟨0, rfl⟩, fun _ => rfl⟩, by simp⟩
  | some c =>
    rw [hc] at k1
    exact ⟨k1.2.samplesOf, fun e he => k2 c hc e ((getErrorSamples_mem c e).1 he)⟩

namespace Sample
def eruns : List (List Emit) := [[.event (bs "j") (bs "q")],
  [.eventErr (bs "j") (bs "e") (some ⟨[1]⟩), .eventErr (bs "j") (bs "e") (some ⟨[1]⟩), .eventErr (bs "j") (bs "e") (some ⟨[2]⟩)],
  [.eventErr (bs "k") (bs "e") (some ⟨[2]⟩), .eventErr (bs "j") (bs "e") (some ⟨[3]⟩)]]
example : (∀ es ∈ eruns, none ∉ errsAt es (.event (bs "e"))) ∧
    shown (mergeAll ⟨60, 0⟩ (eruns.map (aggOf ⟨60, 0⟩))) (.event (bs "e")) = [⟨[1]⟩, ⟨[2]⟩, ⟨[3]⟩] ∧
    shown (mergeAll ⟨60, 0⟩ (eruns.map (aggOf ⟨60, 0⟩))) (.jobEvent (bs "k") (bs "e")) = [⟨[2]⟩] := by decide +kernel
end Sample
