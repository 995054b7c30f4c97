import Verif.Props.Librato
/-!
# C96: what Librato's series are about
-/
open Spec Spec.Lib Librato
namespace Librato

theorem intercalate_inj : ∀ {a b : List Str}, (∀ s ∈ a, (46 : UInt8) ∉ s) → (∀ s ∈ b, (46 : UInt8) ∉ s) → a ≠ [] → b ≠ [] →
    ([46] : Str).intercalate a = ([46] : Str).intercalate b → a = b := by
  intro a b ha hb hane hbne h
  have h1 := List.splitOn_intercalate 46 ha hane
  have h2 := List.splitOn_intercalate 46 hb hbne
  rw [h, h2] at h1
  exact h1.symm

theorem metricName_inj {pfx : Str} {a b : List Str} (ha : ∀ s ∈ a, (46 : UInt8) ∉ s) (hb : ∀ s ∈ b, (46 : UInt8) ∉ s) (hane : a ≠ []) (hbne : b ≠ []) :
    metricName pfx a = metricName pfx b ↔ a = b := by
  constructor
  · intro h
    unfold metricName at h
    by_cases hp : pfx = []
    · simp only [hp, if_true, List.nil_append] at h
      exact intercalate_inj ha hb hane hbne h
    · simp only [hp, if_false] at h
      obtain ⟨x, a, rfl⟩ := List.exists_cons_of_ne_nil hane
      obtain ⟨y, b, rfl⟩ := List.exists_cons_of_ne_nil hbne
      simp only [List.cons_append, List.nil_append, List.intercalate_cons_cons, List.append_cancel_left_eq] at h
      exact intercalate_inj ha hb hane hbne h
  · rintro rfl; rfl

theorem plain_dot {s : Str} (h : Plain s) : (46 : UInt8) ∉ s := fun hc => (h _ hc).2 rfl
theorem plain_keeps {s : Str} (h : Plain s) : Librato.sanitizeKey s = s := C59_keeps s (fun c hc => (h c hc).1)
theorem words_dot : (46 : UInt8) ∉ bs "count" ∧ (46 : UInt8) ∉ bs "error" ∧ (46 : UInt8) ∉ bs "timing" ∧ (46 : UInt8) ∉ bs "gauge" := by decide +kernel
theorem words_ne : bs "count" ≠ bs "error" ∧ bs "timing" ≠ bs "gauge" := by decide +kernel
theorem status_dot (st : Status) : (46 : UInt8) ∉ st.str := by
  unfold Status.str
  split <;> (try split) <;> (try split) <;> (try split) <;> (try split) <;> decide +kernel

theorem counted_cons (o : Opts) (x : Emission) (es : List Emission) (k : Str) : counted o (x :: es) k = (countsIn o x).count k + counted o es k := by
  simp [counted, List.count_append]
theorem valuesAt_cons (o : Opts) (x : Emission) (es : List Emission) (k : Str) :
    valuesAt o (x :: es) k = ((measures o x).filter (fun p => p.1 = k)).map (·.2) ++ valuesAt o es k := by
  simp [valuesAt]

theorem dots2 {a b : Str} (ha : (46 : UInt8) ∉ a) (hb : (46 : UInt8) ∉ b) : ∀ s ∈ [a, b], (46 : UInt8) ∉ s := by
  simp [ha, hb]
theorem dots3 {a b c : Str} (ha : (46 : UInt8) ∉ a) (hb : (46 : UInt8) ∉ b) (hc : (46 : UInt8) ∉ c) : ∀ s ∈ [a, b, c], (46 : UInt8) ∉ s := by
  simp [ha, hb, hc]
theorem dots4 {a b c d : Str} (ha : (46 : UInt8) ∉ a) (hb : (46 : UInt8) ∉ b) (hc : (46 : UInt8) ∉ c) (hd : (46 : UInt8) ∉ d) :
    ∀ s ∈ [a, b, c, d], (46 : UInt8) ∉ s := by
  simp [ha, hb, hc, hd]

/-- how often one emission counts under a name. -/
theorem count_names {o : Opts} (ho : o.sanitize = Librato.sanitizeKey) {x : Emission} (hx : PlainNames x) {names : List Str} (hn : ∀ s ∈ names, (46 : UInt8) ∉ s)
    (hne : names ≠ []) : (countsIn o x).count (metricName o.pfx names) =
      match x with
      | (job, .event e) => (if [e, bs "count"] = names then 1 else 0) + (if [job, e, bs "count"] = names then 1 else 0)
      | (job, .eventErr e _) => (if [e, bs "error", bs "count"] = names then 1 else 0) + (if [job, e, bs "error", bs "count"] = names then 1 else 0)
      | _ => 0 := by
  obtain ⟨job, p⟩ := x
  cases p with
  | event e =>
    simp only [countsIn, ho, plain_keeps hx.1, plain_keeps hx.2, List.count_cons, List.count_nil, beq_iff_eq,
      metricName_inj (dots2 (plain_dot hx.2) words_dot.1) hn (by simp) hne,
      metricName_inj (dots3 (plain_dot hx.1) (plain_dot hx.2) words_dot.1) hn (by simp) hne]
    omega
  | eventErr e err =>
    simp only [countsIn, ho, plain_keeps hx.1, plain_keeps hx.2, List.count_cons, List.count_nil, beq_iff_eq,
      metricName_inj (dots3 (plain_dot hx.2) words_dot.2.1 words_dot.1) hn (by simp) hne,
      metricName_inj (dots4 (plain_dot hx.1) (plain_dot hx.2) words_dot.2.1 words_dot.1) hn (by simp) hne]
    omega
  | timing e v => rfl
  | gauge e v => rfl
  | complete st v => rfl

/-- what one emission measures under a name. -/
theorem measure_names {o : Opts} (ho : o.sanitize = Librato.sanitizeKey) {x : Emission} (hx : PlainNames x) {names : List Str} (hn : ∀ s ∈ names, (46 : UInt8) ∉ s)
    (hne : names ≠ []) : ((measures o x).filter (fun p => p.1 = metricName o.pfx names)).map (·.2) =
      match x with
      | (job, .timing e v) => (if [e, bs "timing"] = names then [inMillis v] else []) ++ (if [job, e, bs "timing"] = names then [inMillis v] else [])
      | (job, .gauge e v) => (if [e, bs "gauge"] = names then [v] else []) ++ (if [job, e, bs "gauge"] = names then [v] else [])
      | (job, .complete st v) => if [job, st.str, bs "timing"] = names then [inMillis v] else []
      | _ => [] := by
  obtain ⟨job, p⟩ := x
  cases p with
  | event e => rfl
  | eventErr e err => rfl
  | timing e v =>
    simp only [measures, ho, plain_keeps hx.1, plain_keeps hx.2, List.filter_cons, List.filter_nil, decide_eq_true_eq,
      metricName_inj (dots2 (plain_dot hx.2) words_dot.2.2.1) hn (by simp) hne,
      metricName_inj (dots3 (plain_dot hx.1) (plain_dot hx.2) words_dot.2.2.1) hn (by simp) hne]
    by_cases h1 : [e, bs "timing"] = names <;> by_cases h2 : [job, e, bs "timing"] = names <;> simp [h1, h2]
  | gauge e v =>
    simp only [measures, ho, plain_keeps hx.1, plain_keeps hx.2, List.filter_cons, List.filter_nil, decide_eq_true_eq,
      metricName_inj (dots2 (plain_dot hx.2) words_dot.2.2.2) hn (by simp) hne,
      metricName_inj (dots3 (plain_dot hx.1) (plain_dot hx.2) words_dot.2.2.2) hn (by simp) hne]
    by_cases h1 : [e, bs "gauge"] = names <;> by_cases h2 : [job, e, bs "gauge"] = names <;> simp [h1, h2]
  | complete st v =>
    have hx' : Plain job := hx
    simp only [measures, ho, plain_keeps hx', List.filter_cons, List.filter_nil, decide_eq_true_eq,
      metricName_inj (dots3 (plain_dot hx') (status_dot st) words_dot.2.2.1) hn (by simp) hne]
    by_cases h2 : [job, st.str, bs "timing"] = names <;> simp [h2]

/-- C96 (counters): with plain names and any prefix, what Librato counts under a name is the number of the eventsOf, or errorsOf, of this name, in all
jobs or in one; but the events called "error" of a job and the errors called like the job are one series. -/
theorem C96_counters (o : Opts) (ho : o.sanitize = Librato.sanitizeKey) (es : List Emission) (hes : ∀ x ∈ es, PlainNames x) (job e : Str) (hj : Plain job) (he : Plain e) :
    counted o es (metricName o.pfx [e, bs "count"]) = eventsOf es e ∧
    counted o es (metricName o.pfx [job, e, bs "count"]) = eventsIn es job e + (if e = bs "error" then errorsOf es job else 0) ∧
    counted o es (metricName o.pfx [e, bs "error", bs "count"]) = errorsOf es e + eventsIn es e (bs "error") ∧
    counted o es (metricName o.pfx [job, e, bs "error", bs "count"]) = errorsIn es job e := by
  have d2 := dots2 (plain_dot he) words_dot.1
  have d3 := dots3 (plain_dot hj) (plain_dot he) words_dot.1
  have d3' := dots3 (plain_dot he) words_dot.2.1 words_dot.1
  have d4 := dots4 (plain_dot hj) (plain_dot he) words_dot.2.1 words_dot.1
  induction es with
  | nil => simp [counted, eventsOf, eventsIn, errorsOf, errorsIn]
  | cons x es ih =>
    have hx := hes x (by simp)
    obtain ⟨i1, i2, i3, i4⟩ := ih (fun y hy => hes y (by simp [hy]))
    simp only [counted_cons, i1, i2, i3, i4, count_names ho hx d2 (by simp), count_names ho hx d3 (by simp), count_names ho hx d3' (by simp),
      count_names ho hx d4 (by simp)]
    obtain ⟨j, p⟩ := x
    cases p with
    | event n =>
      simp only [eventsOf, eventsIn, errorsOf, errorsIn, List.countP_cons, List.cons.injEq, decide_eq_true_eq, and_true, reduceCtorEq, if_false, and_false]
      refine ⟨by simp; omega, by simp; omega, ?_, by simp⟩
      by_cases h1 : j = e <;> by_cases h2 : n = bs "error" <;> simp [h1, h2] <;> omega
    | eventErr n err =>
      simp only [eventsOf, eventsIn, errorsOf, errorsIn, List.countP_cons, List.cons.injEq, decide_eq_true_eq, and_true, reduceCtorEq, if_false, and_false]
      refine ⟨by simp, ?_, ?_, ?_⟩
      · by_cases h1 : n = job <;> by_cases h2 : e = bs "error" <;> simp [h1, h2, eq_comm] <;> omega
      · simp; omega
      · by_cases h1 : j = job <;> by_cases h2 : n = e <;> simp [h1, h2] <;> omega
    | timing n v => simp [eventsOf, eventsIn, errorsOf, errorsIn]
    | gauge n v => simp [eventsOf, eventsIn, errorsOf, errorsIn]
    | complete st v => simp [eventsOf, eventsIn, errorsOf, errorsIn]

/-- C96 (measurements): with plain names and any prefix, what Librato is told under a name are the values of the timingsOf, or gaugesOf, of this name, in
all jobs or in one, or the times of a job's completions with a status; but the timings of a job that are called like a status and the completions with
this status are one series. -/
theorem C96_values (o : Opts) (ho : o.sanitize = Librato.sanitizeKey) (es : List Emission) (hes : ∀ x ∈ es, PlainNames x) (job e : Str) (hj : Plain job) (he : Plain e) :
    valuesAt o es (metricName o.pfx [e, bs "timing"]) = timingsOf es e ∧
    valuesAt o es (metricName o.pfx [job, e, bs "timing"]) = timesIn es job e ∧
    valuesAt o es (metricName o.pfx [e, bs "gauge"]) = gaugesOf es e ∧
    valuesAt o es (metricName o.pfx [job, e, bs "gauge"]) = gaugesIn es job e := by
  have d2 := dots2 (plain_dot he) words_dot.2.2.1
  have d3 := dots3 (plain_dot hj) (plain_dot he) words_dot.2.2.1
  have d2' := dots2 (plain_dot he) words_dot.2.2.2
  have d3' := dots3 (plain_dot hj) (plain_dot he) words_dot.2.2.2
  induction es with
  | nil => simp [valuesAt, timingsOf, timesIn, gaugesOf, gaugesIn]
  | cons x es ih =>
    have hx := hes x (by simp)
    obtain ⟨i1, i2, i3, i4⟩ := ih (fun y hy => hes y (by simp [hy]))
    simp only [valuesAt_cons, i1, i2, i3, i4, measure_names ho hx d2 (by simp), measure_names ho hx d3 (by simp), measure_names ho hx d2' (by simp),
      measure_names ho hx d3' (by simp)]
    obtain ⟨j, p⟩ := x
    cases p with
    | event n => simp [timingsOf, timesIn, gaugesOf, gaugesIn]
    | eventErr n err => simp [timingsOf, timesIn, gaugesOf, gaugesIn]
    | timing n v => by_cases h1 : n = e <;> by_cases h2 : j = job <;> simp [timingsOf, timesIn, gaugesOf, gaugesIn, words_ne.2, h1, h2]
    | gauge n v => by_cases h1 : n = e <;> by_cases h2 : j = job <;> simp [timingsOf, timesIn, gaugesOf, gaugesIn, words_ne.2.symm, h1, h2]
    | complete st v => by_cases h1 : st.str = e <;> by_cases h2 : j = job <;> simp [timingsOf, timesIn, gaugesOf, gaugesIn, words_ne.2, h1, h2]

theorem no_values {o : Opts} (ho : o.sanitize = Librato.sanitizeKey) {es : List Emission} (hes : ∀ x ∈ es, PlainNames x) {names : List Str}
    (hn : ∀ s ∈ names, (46 : UInt8) ∉ s) (hne : names ≠ []) (hl : names.getLast? = some (bs "count")) : valuesAt o es (metricName o.pfx names) = [] := by
  have w : bs "timing" ≠ bs "count" ∧ bs "gauge" ≠ bs "count" := by decide +kernel
  have n2 : ∀ a b, b ≠ bs "count" → [a, b] ≠ names := by rintro a b h rfl; simp at hl; exact h hl
  have n3 : ∀ a b c, c ≠ bs "count" → [a, b, c] ≠ names := by rintro a b c h rfl; simp at hl; exact h hl
  induction es with
  | nil => rfl
  | cons x es ih =>
    rw [valuesAt_cons, ih (fun y hy => hes y (by simp [hy])), measure_names ho (hes x (by simp)) hn hne]
    obtain ⟨j, p⟩ := x
    cases p <;> simp [n2 _ _ w.1, n2 _ _ w.2, n3 _ _ _ w.1, n3 _ _ _ w.2]

theorem no_counts {o : Opts} (ho : o.sanitize = Librato.sanitizeKey) {es : List Emission} (hes : ∀ x ∈ es, PlainNames x) {names : List Str}
    (hn : ∀ s ∈ names, (46 : UInt8) ∉ s) (hne : names ≠ []) (hl : names.getLast? ≠ some (bs "count")) : counted o es (metricName o.pfx names) = 0 := by
  have n2 : ∀ a, [a, bs "count"] ≠ names := by rintro a rfl; simp at hl
  have n3 : ∀ a b, [a, b, bs "count"] ≠ names := by rintro a b rfl; simp at hl
  have n4 : ∀ a b c, [a, b, c, bs "count"] ≠ names := by rintro a b c rfl; simp at hl
  induction es with
  | nil => rfl
  | cons x es ih =>
    rw [counted_cons, ih (fun y hy => hes y (by simp [hy])), count_names ho (hes x (by simp)) hn hne]
    obtain ⟨j, p⟩ := x
    cases p <;> simp [n2, n3, n4]

theorem timesIn_timings {es : List Emission} {job e : Str} (h : ∀ st : Status, st.str ≠ e) : timesIn es job e = timingsIn es job e := by
  unfold timesIn timingsIn
  apply List.filterMap_congr
  rintro ⟨j, p⟩ _
  cases p <;> simp [h]
theorem timesIn_completions {es : List Emission} {job e : Str} (h : timingsIn es job e = []) : timesIn es job e = completionsIn es job e := by
  unfold timesIn completionsIn
  unfold timingsIn at h
  rw [List.filterMap_eq_nil_iff] at h
  apply List.filterMap_congr
  rintro ⟨j, p⟩ hp
  have := h _ hp
  cases p <;> simp_all

/-- C96, partial: with the default sanitiser and names of valid characters without dots, whatever the prefix: every series of a post shows the number of the
events or errors, or the values of the timings, gauges or completions, that were emitted under its name since the previous post: over all jobs, and for each job.
Missing: names with dots or other characters; events of a job that are called "error" and errors called like this job; timings that are called like a status
(see `C96_false`). -/
theorem C96_post_partial (o : Opts) (ho : o.sanitize = Librato.sanitizeKey) (now : Int) (es : List Emission) (hes : ∀ x ∈ es, PlainNames x) (j : Json)
    (h : IsPost o now es j) : ∃ ms, j.field (bs "gauges") = some (.obj ms) ∧ ∀ job e, Plain job → Plain e →
      CounterIs ms (metricName o.pfx [e, bs "count"]) (eventsOf es e) ∧
      (e ≠ bs "error" → CounterIs ms (metricName o.pfx [job, e, bs "count"]) (eventsIn es job e)) ∧
      (eventsIn es e (bs "error") = 0 → CounterIs ms (metricName o.pfx [e, bs "error", bs "count"]) (errorsOf es e)) ∧
      CounterIs ms (metricName o.pfx [job, e, bs "error", bs "count"]) (errorsIn es job e) ∧
      MeasurementIs ms (metricName o.pfx [e, bs "timing"]) (timingsOf es e) ∧
      ((∀ st : Status, st.str ≠ e) → MeasurementIs ms (metricName o.pfx [job, e, bs "timing"]) (timingsIn es job e)) ∧
      (timingsIn es job e = [] → MeasurementIs ms (metricName o.pfx [job, e, bs "timing"]) (completionsIn es job e)) ∧
      MeasurementIs ms (metricName o.pfx [e, bs "gauge"]) (gaugesOf es e) ∧
      MeasurementIs ms (metricName o.pfx [job, e, bs "gauge"]) (gaugesIn es job e) := by
  obtain ⟨ms, h1, _, h3⟩ := h.metrics
  refine ⟨ms, h1, fun job e hj he => ?_⟩
  have cnt : ∀ names, (∀ s ∈ names, (46 : UInt8) ∉ s) → names ≠ [] → names.getLast? = some (bs "count") → ∀ n, counted o es (metricName o.pfx names) = n →
      CounterIs ms (metricName o.pfx names) n := by
    intro names hn hne hl n hc
    have hv := no_values ho hes hn hne hl
    unfold CounterIs
    rcases h3 (metricName o.pfx names) with ⟨a, b, c⟩ | ⟨a, b, x, c, d⟩ | ⟨a, b, x, c, d⟩
    · rw [c]; exact hc.symm.trans a
    · rw [c]; rw [hc] at a d; exact ⟨a, d⟩
    · exact absurd hv b
  have mea : ∀ names, (∀ s ∈ names, (46 : UInt8) ∉ s) → names ≠ [] → names.getLast? ≠ some (bs "count") → ∀ xs, valuesAt o es (metricName o.pfx names) = xs →
      MeasurementIs ms (metricName o.pfx names) xs := by
    intro names hn hne hl xs hc
    have hv := no_counts ho hes hn hne hl
    unfold MeasurementIs
    rcases h3 (metricName o.pfx names) with ⟨a, b, c⟩ | ⟨a, b, x, c, d⟩ | ⟨a, b, x, c, d⟩
    · rw [c]; exact hc.symm.trans b
    · omega
    · rw [c]; rw [hc] at b d; exact ⟨b, d⟩
  obtain ⟨c1, c2, c3, c4⟩ := C96_counters o ho es hes job e hj he
  obtain ⟨v1, v2, v3, v4⟩ := C96_values o ho es hes job e hj he
  have w : bs "timing" ≠ bs "count" ∧ bs "gauge" ≠ bs "count" := by decide +kernel
  have d2 := dots2 (plain_dot he) words_dot.1
  have d3 := dots3 (plain_dot hj) (plain_dot he) words_dot.1
  have d3' := dots3 (plain_dot he) words_dot.2.1 words_dot.1
  have d4 := dots4 (plain_dot hj) (plain_dot he) words_dot.2.1 words_dot.1
  have t2 := dots2 (plain_dot he) words_dot.2.2.1
  have t3 := dots3 (plain_dot hj) (plain_dot he) words_dot.2.2.1
  have g2 := dots2 (plain_dot he) words_dot.2.2.2
  have g3 := dots3 (plain_dot hj) (plain_dot he) words_dot.2.2.2
  refine ⟨cnt _ d2 (by simp) (by simp) _ c1, fun hne => cnt _ d3 (by simp) (by simp) _ (by rw [c2, if_neg hne, Nat.add_zero]),
    fun h0 => cnt _ d3' (by simp) (by simp) _ (by rw [c3, h0, Nat.add_zero]), cnt _ d4 (by simp) (by simp) _ c4,
    mea _ t2 (by simp) (by simp [w]) _ v1, fun hs => mea _ t3 (by simp) (by simp [w]) _ (by rw [v2, timesIn_timings hs]),
    fun h0 => mea _ t3 (by simp) (by simp [w]) _ (by rw [v2, timesIn_completions h0]), mea _ g2 (by simp) (by simp [w]) _ v3, mea _ g3 (by simp) (by simp [w]) _ v4⟩

/-- a case that meets the hypotheses. -/
def seriesOps : List Op := [.emit (bs "j2") (.event (bs "e")), .emit (bs "j2") (.complete 0 2000000), .emit (bs "j2") (.gauge (bs "g") (.fin (1/2))), .flush 7]
example : libo.sanitize = Librato.sanitizeKey ∧ (∀ x ∈ emissions seriesOps, PlainNames x) ∧ ∃ j, IsPost libo 7 (emissions seriesOps) j := by
  have p : ∀ s ∈ [bs "j2", bs "e", bs "g"], Plain s := by
    have : ∀ s ∈ [bs "j2", bs "e", bs "g"], ∀ c ∈ s, shouldSanitize (.ascii c) = false ∧ c ≠ 46 := by decide +kernel
    intro s hs c hc
    exact ⟨(keeps_ascii c).1 (this s hs c hc).1, (this s hs c hc).2⟩
  refine ⟨rfl, ?_, ?_⟩
  · simp only [seriesOps, emissions, List.forall_mem_cons] at p ⊢
    exact ⟨⟨p.1, p.2.1⟩, p.1, ⟨p.1, p.2.2.1⟩, by simp⟩
  · have hv : F64.rnd (1/2) = .fin (1/2) := by decide +kernel
    have h := (C58_flushes_partial libo libo_hyps.1 libo_hyps.2.1 libo_hyps.2.2 seriesOps (by
      simp only [seriesOps, emissions, List.forall_mem_cons]
      exact ⟨trivial, trivial, hv, by simp⟩) (by decide)).1
    have hr : (run libo seriesOps).2.map (fun | .posted _ => true | _ => false) = [true] := by decide +kernel
    generalize (run libo seriesOps).2 = out at h hr
    simp only [seriesOps, flushes, List.nil_append, List.cons_append] at h
    obtain ⟨r, l, hf, hl, rfl⟩ := List.forall₂_cons_left_iff.1 h
    rcases hf with ⟨h1, _⟩ | ⟨_, _, b, j, h3, _, h5⟩ | ⟨_, _, h3⟩
    · simp at h1
    · exact ⟨j, h5⟩
    · rw [h3] at hr; simp at hr

/-- C96 without its exceptions is false, even for plain names: an event "error" of the job "x" and an error "x" make one counter of 2;
a timing "success" falsifies the times of a job's successes; with a dot in a name, an event counts as that of another job; names that differ in other
characters are one. -/
theorem C96_false :
    counted libo [(bs "x", .event (bs "error")), (bs "j", .eventErr (bs "x") .nil)] (bs "app.x.error.count") = 2 ∧
    valuesAt libo [(bs "j", .complete Status.success 1000000), (bs "j", .timing (bs "success") 9000000)] (bs "app.j.success.timing") = [.fin 1, .fin 9] ∧
    counted libo [(bs "j", .event (bs "a.b"))] (bs "app.a.b.count") = 1 ∧
    counted libo [(bs "j", .event (bs "a b")), (bs "j", .event (bs "a/b"))] (bs "app.j.a_b.count") = 2 := by decide +kernel

end Librato
