import Verif.Lemmas.Window
/-! Well-formedness of aggregations (every map has pairwise different keys), and clone is the identity on values. -/
open Spec

structure AggMaps.Wf (am : AggMaps) : Prop where
  timers : GoMap.Wf am.timers
  gauges : GoMap.Wf am.gauges
  events : GoMap.Wf am.events
  eventErrs : GoMap.Wf am.eventErrs

structure IntAgg.Wf (ia : IntAgg) : Prop where
  jobs : GoMap.Wf ia.jobs
  maps : ia.maps.Wf
  jobMaps : ∀ p ∈ ia.jobs, p.2.maps.Wf

theorem AggMaps.Wf.init : AggMaps.init.Wf := ⟨.nil, .nil, .nil, .nil⟩

theorem AggMaps.Wf.applyE {am : AggMaps} (h : am.Wf) (e : Emit) : (am.applyE e).Wf := by
  cases e
  · exact ⟨h.timers, h.gauges, h.events.set _ _, h.eventErrs⟩
  · exact ⟨h.timers, h.gauges, h.events, h.eventErrs.set _ _⟩
  · exact ⟨h.timers.set _ _, h.gauges, h.events, h.eventErrs⟩
  · exact ⟨h.timers, h.gauges.set _ _, h.events, h.eventErrs⟩
  · exact h

theorem mapsOf_wf (es : List Emit) : (mapsOf es).Wf := by
  induction es using snocInduction with
  | nil => exact .init
  | snoc l a ih => rw [mapsOf_snoc]; exact ih.applyE a

theorem IntAgg.Wf.new (s : Time) : (IntAgg.new s).Wf := ⟨.nil, .init, by simp [IntAgg.new]⟩

theorem aggOf_wf (s : Time) (es : List Emit) : (aggOf s es).Wf := by
  have hj : GoMap.Wf (aggOf s es).jobs := by
    induction es using snocInduction with
    | nil => exact .nil
    | snoc l a ih => rw [aggOf_snoc, IntAgg.apply_eq]; exact ih.set _ _
  refine ⟨hj, by rw [aggOf_maps]; exact mapsOf_wf es, ?_⟩
  rintro ⟨k, j⟩ hp
  have := GoMap.get?_of_mem hj hp
  rw [aggOf_jobs] at this
  split at this
  · cases this
  · cases this; simp only [jobAggOf_maps]; exact mapsOf_wf _

theorem GoMap.set_of_not_mem {K V : Type} [DecidableEq K] {m : GoMap K V} {k : K} (h : k ∉ m.keys) (v : V) :
    m.set k v = m ++ [(k, v)] := by
  induction m with
  | nil => rfl
  | cons p t ih =>
    obtain ⟨a, b⟩ := p
    simp only [GoMap.keys, List.map_cons, List.mem_cons, not_or] at h
    unfold GoMap.set
    rw [if_neg (Ne.symm h.1), ih h.2]
    rfl

theorem foldl_set_map {K V W : Type} [DecidableEq K] (f : V → W) (m : GoMap K V) (m0 : GoMap K W)
    (h : (m0.keys ++ m.keys).Nodup) :
    m.foldl (fun acc p => acc.set p.1 (f p.2)) m0 = m0 ++ m.map (fun p => (p.1, f p.2)) := by
  induction m generalizing m0 with
  | nil => simp
  | cons p t ih =>
    obtain ⟨k, v⟩ := p
    have hk : k ∉ m0.keys := by
      intro hk
      rw [List.nodup_append] at h
      exact h.2.2 k hk k (by simp [GoMap.keys]) rfl
    simp only [List.foldl_cons]
    rw [GoMap.set_of_not_mem hk, ih]
    · simp
    · simpa [GoMap.keys] using h

theorem foldl_set_id {K V : Type} [DecidableEq K] {m : GoMap K V} (h : GoMap.Wf m) :
    m.foldl (fun (acc : GoMap K V) p => acc.set p.1 p.2) [] = m := by
  have := foldl_set_map (id : V → V) m [] (by simpa [GoMap.keys, GoMap.Wf] using h)
  simpa using this

theorem AggMaps.clone_eq {am : AggMaps} (h : am.Wf) : am.clone = am := by
  unfold AggMaps.clone
  rw [foldl_set_id h.events, foldl_set_id h.gauges, foldl_set_id h.timers, foldl_set_id h.eventErrs]

theorem IntAgg.clone_eq {ia : IntAgg} (h : ia.Wf) : ia.clone = ia := by
  unfold IntAgg.clone
  rw [AggMaps.clone_eq h.maps]
  have h1 := foldl_set_map JobAgg.clone ia.jobs [] (by simpa [GoMap.keys, GoMap.Wf] using h.jobs)
  have h2 : ia.jobs.map (fun p => (p.1, p.2.clone)) = ia.jobs := by
    conv_rhs => rw [← List.map_id ia.jobs]
    apply List.map_congr_left
    rintro ⟨k, j⟩ hp
    have := h.jobMaps _ hp
    simp only [JobAgg.clone, AggMaps.clone_eq this, id]
  simp only [List.nil_append] at h1
  rw [h1, h2]

theorem modifyLast_id (f : IntAgg → IntAgg) (l : List IntAgg) (h : ∀ x ∈ l, f x = x) : modifyLast f l = l := by
  induction l with
  | nil => rfl
  | cons a t ih =>
    cases t with
    | nil => simp [modifyLast, h a]
    | cons b t => simp only [modifyLast]; rw [ih (fun x hx => h x (by simp_all))]

/-- What GetMetrics returns: the retained segments, aggregated. -/
theorem getMetrics_eq {d r : Int} (hd : 0 < d) (hr : d ≤ r) (h : List (Time × AggOp)) (now : Time) :
    getMetrics d r h now = some ((retained d r (h ++ [(now, .read)])).map aggOfSeg) := by
  obtain ⟨a0, a, h1, h2, _, h3⟩ := run_refines hd hr h
  obtain ⟨a', h4, h5, _⟩ := h3.slide hd (newAggregator_ok hd hr).2 now .read rfl
  unfold getMetrics Aggregator.memorySafeIntervals
  simp only [h1, h2, h4, Option.bind_some, Option.map_some]
  rw [h5.win, modifyLast_id]
  · rw [retained, segments_snoc]
  · intro x hx
    obtain ⟨p, _, rfl⟩ := List.mem_map.1 hx
    exact IntAgg.clone_eq (aggOf_wf _ _)
