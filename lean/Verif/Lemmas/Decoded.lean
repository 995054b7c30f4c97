import Verif.Spec.Healthd
import Verif.Spec.Metrics
import Verif.Lemmas.Merge
/-!
# Whatever is decoded fits Go's types
-/
open Spec Unmarshal

namespace Unmarshal

/-- decoding into something with `P` gives something with `P`. -/
def Keeps {V : Type} (P : V → Prop) (dec : Dec V) : Prop := ∀ v r v', P v → dec v r = some v' → P v'

theorem keeps_true {V : Type} (dec : Dec V) : Keeps (fun _ => True) dec := fun _ _ _ _ _ => trivial

theorem keeps_int : Keeps InI64 decInt := by
  intro v r v' hv h
  unfold decInt at h
  split at h
  · cases h; exact hv
  · split at h
    · next h1 => cases h; exact ⟨h1.2.2.1, h1.2.2.2⟩
    · cases h
  · cases h

theorem inI64_zero : InI64 0 := by unfold InI64; norm_num

theorem keeps_ptr {V : Type} {P : V → Prop} {dec : Dec V} {zero : V} (h0 : P zero) (hd : Keeps P dec) :
    Keeps (fun o : Option V => ∀ v, o = some v → P v) (decPtr dec zero) := by
  intro o r o' ho h
  unfold decPtr at h
  split at h
  · cases h; simp
  · obtain ⟨v, h1, rfl⟩ := Option.map_eq_some_iff.1 h
    rintro _ ⟨⟩
    refine hd _ _ _ ?_ h1
    cases o with
    | none => exact h0
    | some v => exact ho v rfl

theorem keeps_map {V : Type} {P : V → Prop} {dec : Dec V} {zero : V} (h0 : P zero) (hd : Keeps P dec) :
    Keeps (fun m : GoMap Str V => m.Wf ∧ ∀ p ∈ m, P p.2) (decMap dec zero) := by
  intro m r m' hm h
  unfold decMap at h
  split at h
  · cases h; exact ⟨.nil, by simp⟩
  · next ms =>
    induction ms generalizing m with
    | nil => cases h; exact hm
    | cons x t ih =>
      rw [List.foldlM_cons] at h
      obtain ⟨m1, h1, h2⟩ := Option.bind_eq_some_iff.1 h
      obtain ⟨v, h3, rfl⟩ := Option.map_eq_some_iff.1 h1
      refine ih _ ⟨hm.1.set _ _, ?_⟩ h2
      intro p hpm
      have hg := GoMap.get?_of_mem (hm.1.set x.1 v) (k := p.1) (v := p.2) hpm
      rw [GoMap.get?_set] at hg
      split at hg
      · cases hg; exact hd _ _ _ h0 h3
      · exact hm.2 _ (GoMap.mem_of_get? hg)
  · cases h

theorem keeps_struct {S : Type} {P : S → Prop} {fields : List (Str × Dec S)} (hf : ∀ f ∈ fields, Keeps P f.2) : Keeps P (decStruct fields) := by
  intro s r s' hs h
  unfold decStruct at h
  split at h
  · cases h; exact hs
  · next ms =>
    induction ms generalizing s with
    | nil => cases h; exact hs
    | cons x t ih =>
      rw [List.foldlM_cons] at h
      obtain ⟨s1, h1, h2⟩ := Option.bind_eq_some_iff.1 h
      refine ih _ ?_ h2
      unfold store at h1
      split at h1
      · next f he => exact hf f (List.mem_of_find?_eq_some he) _ _ _ hs h1
      · cases h1; exact hs
  · cases h

theorem keeps_field {S V : Type} {P : S → Prop} {Q : V → Prop} {name : Str} {dec : Dec V} {get : S → V} {put : S → V → S} (hd : Keeps Q dec)
    (hg : ∀ s, P s → Q (get s)) (hp : ∀ s v, P s → Q v → P (put s v)) : Keeps P (fieldOf name dec get put).2 := by
  intro s r s' hs h
  obtain ⟨v, h1, rfl⟩ := Option.map_eq_some_iff.1 h
  exact hp s v hs (hd _ _ _ (hg s hs) h1)

theorem keeps_embedded {S T : Type} {P : S → Prop} {Q : T → Prop} {fields : List (Str × Dec T)} {get : S → T} {put : S → T → S}
    (hf : ∀ f ∈ fields, Keeps Q f.2) (hg : ∀ s, P s → Q (get s)) (hp : ∀ s v, P s → Q v → P (put s v)) : ∀ f ∈ embedded fields get put, Keeps P f.2 := by
  intro f h
  obtain ⟨f', h1, rfl⟩ := List.mem_map.1 h
  exact keeps_field (hf f' h1) hg hp

structure TimerFits (t : TimerAgg) : Prop where
  count : InI64 t.count
  sum : InI64 t.nanosSum
  min : InI64 t.nanosMin
  max : InI64 t.nanosMax

theorem timerFits_zero : TimerFits TimerAgg.zero := ⟨inI64_zero, inI64_zero, inI64_zero, inI64_zero⟩

theorem keeps_timer : ∀ f ∈ timerFields, Keeps TimerFits f.2 := by
  intro f hf
  simp only [timerFields, List.mem_cons, List.not_mem_nil, or_false] at hf
  rcases hf with rfl | rfl | rfl | rfl | rfl
  · exact keeps_field keeps_int (fun s h => h.count) (fun s v h hv => ⟨hv, h.2, h.3, h.4⟩)
  · exact keeps_field keeps_int (fun s h => h.sum) (fun s v h hv => ⟨h.1, hv, h.3, h.4⟩)
  · exact keeps_field (keeps_true _) (fun s h => trivial) (fun s v h hv => ⟨h.1, h.2, h.3, h.4⟩)
  · exact keeps_field keeps_int (fun s h => h.min) (fun s v h hv => ⟨h.1, h.2, hv, h.4⟩)
  · exact keeps_field keeps_int (fun s h => h.max) (fun s v h hv => ⟨h.1, h.2, h.3, hv⟩)

theorem keeps_errorCounter : ∀ f ∈ errorCounterFields, Keeps (fun e : ErrorCounter => InI64 e.count) f.2 := by
  intro f hf
  simp only [errorCounterFields, List.mem_cons, List.not_mem_nil, or_false] at hf
  subst hf
  exact keeps_field keeps_int (fun s h => h) (fun s v h hv => hv)

def PtrMapFits {V : Type} (P : V → Prop) (m : GoMap Str (Option V)) : Prop := m.Wf ∧ ∀ p ∈ m, ∀ v, p.2 = some v → P v

structure RawMapsFit (m : Maps) : Prop where
  timers : PtrMapFits TimerFits m.timers
  gauges : m.gauges.Wf
  events : m.events.Wf ∧ ∀ p ∈ m.events, InI64 p.2
  errs : PtrMapFits (fun e : ErrorCounter => InI64 e.count) m.eventErrs

theorem keeps_ptrMap {V : Type} {P : V → Prop} {dec : Dec V} {zero : V} (h0 : P zero) (hd : Keeps P dec) : Keeps (PtrMapFits P) (decMap (decPtr dec zero) none) :=
  keeps_map (P := fun o : Option V => ∀ v, o = some v → P v) (by simp) (keeps_ptr h0 hd)

theorem keeps_maps : ∀ f ∈ mapsFields, Keeps RawMapsFit f.2 := by
  intro f hf
  simp only [mapsFields, List.mem_cons, List.not_mem_nil, or_false] at hf
  rcases hf with rfl | rfl | rfl | rfl
  · exact keeps_field (keeps_ptrMap timerFits_zero (keeps_struct keeps_timer)) (fun s h => h.timers) (fun s v h hv => ⟨hv, h.2, h.3, h.4⟩)
  · exact keeps_field (Q := fun m : GoMap Str F64 => m.Wf ∧ ∀ p ∈ m, True) (keeps_map (P := fun _ => True) trivial (keeps_true _)) (fun s h => ⟨h.gauges, fun _ _ => trivial⟩)
      (fun s v h hv => ⟨h.1, hv.1, h.3, h.4⟩)
  · exact keeps_field (keeps_map inI64_zero keeps_int) (fun s h => h.events) (fun s v h hv => ⟨h.1, h.2, hv, h.4⟩)
  · exact keeps_field (keeps_ptrMap (P := fun e : ErrorCounter => InI64 e.count) inI64_zero (keeps_struct keeps_errorCounter)) (fun s h => h.errs)
      (fun s v h hv => ⟨h.1, h.2, h.3, hv⟩)

theorem ptrMapFits_nil {V : Type} (P : V → Prop) : PtrMapFits P [] := ⟨.nil, by simp⟩
theorem rawMapsFit_zero : RawMapsFit Maps.zero := ⟨ptrMapFits_nil _, .nil, ⟨.nil, by simp [Maps.zero]⟩, ptrMapFits_nil _⟩

structure RawJobFits (j : Job) : Prop where
  maps : RawMapsFit j.maps
  timer : TimerFits j.timer
  success : InI64 j.countSuccess
  validationError : InI64 j.countValidationError
  panic : InI64 j.countPanic
  error : InI64 j.countError
  junk : InI64 j.countJunk

theorem rawJobFits_zero : RawJobFits Job.zero := ⟨rawMapsFit_zero, timerFits_zero, inI64_zero, inI64_zero, inI64_zero, inI64_zero, inI64_zero⟩

theorem keeps_job : ∀ f ∈ jobFields, Keeps RawJobFits f.2 := by
  intro f hf
  unfold jobFields at hf
  rcases List.mem_append.1 hf with hf | hf
  · rcases List.mem_append.1 hf with hf | hf
    · exact keeps_embedded keeps_maps (fun s h => h.maps) (fun s v h hv => ⟨hv, h.2, h.3, h.4, h.5, h.6, h.7⟩) f hf
    · exact keeps_embedded keeps_timer (fun s h => h.timer) (fun s v h hv => ⟨h.1, hv, h.3, h.4, h.5, h.6, h.7⟩) f hf
  · simp only [List.mem_cons, List.not_mem_nil, or_false] at hf
    rcases hf with rfl | rfl | rfl | rfl | rfl
    · exact keeps_field keeps_int (fun s h => h.success) (fun s v h hv => ⟨h.1, h.2, hv, h.4, h.5, h.6, h.7⟩)
    · exact keeps_field keeps_int (fun s h => h.validationError) (fun s v h hv => ⟨h.1, h.2, h.3, hv, h.5, h.6, h.7⟩)
    · exact keeps_field keeps_int (fun s h => h.panic) (fun s v h hv => ⟨h.1, h.2, h.3, h.4, hv, h.6, h.7⟩)
    · exact keeps_field keeps_int (fun s h => h.error) (fun s v h hv => ⟨h.1, h.2, h.3, h.4, h.5, hv, h.7⟩)
    · exact keeps_field keeps_int (fun s h => h.junk) (fun s v h hv => ⟨h.1, h.2, h.3, h.4, h.5, h.6, hv⟩)

structure RawIntervalFits (a : Interval) : Prop where
  serial : InI64 a.serial
  jobs : PtrMapFits RawJobFits a.jobs
  maps : RawMapsFit a.maps

theorem rawIntervalFits_zero : RawIntervalFits Interval.zero := ⟨inI64_zero, ptrMapFits_nil _, rawMapsFit_zero⟩

theorem keeps_interval (lo : Int → Int) (fresh : Nat) : ∀ f ∈ intervalFields lo fresh, Keeps RawIntervalFits f.2 := by
  intro f hf
  unfold intervalFields at hf
  rcases List.mem_append.1 hf with hf | hf
  · simp only [List.mem_cons, List.not_mem_nil, or_false] at hf
    rcases hf with rfl | rfl | rfl
    · exact keeps_field (keeps_true _) (fun s h => trivial) (fun s v h hv => ⟨h.1, h.2, h.3⟩)
    · exact keeps_field keeps_int (fun s h => h.serial) (fun s v h hv => ⟨hv, h.2, h.3⟩)
    · exact keeps_field (keeps_ptrMap rawJobFits_zero (keeps_struct keeps_job)) (fun s h => h.jobs) (fun s v h hv => ⟨h.1, hv, h.3⟩)
  · exact keeps_embedded keeps_maps (fun s h => h.maps) (fun s v h hv => ⟨h.1, h.2, hv⟩) f hf

def CellFits (o : Option Interval) : Prop := ∀ a, o = some a → RawIntervalFits a

theorem decElems_fit (lo : Int → Int) (rs : List Raw) : ∀ (fresh : Nat) (cells : List (Option Interval)) (s : Slice), (∀ o ∈ cells, CellFits o) →
    decElems lo fresh cells rs = some s → (∀ o ∈ s.elems, CellFits o) ∧ ∀ o ∈ s.hidden, CellFits o := by
  induction rs with
  | nil => intro fresh cells s hc h; rw [decElems] at h; cases h; exact ⟨by simp, hc⟩
  | cons r t ih =>
    intro fresh cells s hc h
    rw [decElems] at h
    obtain ⟨e, h1, h2⟩ := Option.bind_eq_some_iff.1 h
    obtain ⟨s', h3, rfl⟩ := Option.map_eq_some_iff.1 h2
    have hs := ih _ _ _ (fun o ho => hc o (List.mem_of_mem_tail ho)) h3
    refine ⟨?_, hs.2⟩
    intro o ho
    rcases List.mem_cons.1 ho with rfl | ho
    · refine keeps_ptr (P := RawIntervalFits) rawIntervalFits_zero (keeps_struct (keeps_interval lo fresh)) _ _ _ ?_ h1
      cases cells with
      | nil => simp
      | cons c cs => exact hc c (by simp)
    · exact hs.1 o ho

def SliceFits (s : Slice) : Prop := (∀ o ∈ s.elems, CellFits o) ∧ ∀ o ∈ s.hidden, CellFits o

theorem keeps_slice (lo : Int → Int) (fresh : Nat) : Keeps SliceFits (decSlice lo fresh) := by
  intro s r s' hs h
  unfold decSlice at h
  split at h
  · cases h; exact ⟨by simp, by simp⟩
  · cases h; exact ⟨by simp, by simp⟩
  · refine decElems_fit lo _ _ _ _ ?_ h
    intro o ho
    rcases List.mem_append.1 ho with ho | ho
    · exact hs.1 o ho
    · exact hs.2 o ho
  · cases h

structure AnswerFits (a : Answer) : Prop where
  duration : InI64 a.intervalDuration
  aggs : SliceFits a.aggs

theorem keeps_answer (lo : Int → Int) (fresh : Nat) : ∀ f ∈ answerFields lo fresh, Keeps AnswerFits f.2 := by
  intro f hf
  simp only [answerFields, List.mem_cons, List.not_mem_nil, or_false] at hf
  rcases hf with rfl | rfl | rfl
  · exact keeps_field (keeps_true _) (fun s h => trivial) (fun s v h hv => ⟨h.1, h.2⟩)
  · exact keeps_field keeps_int (fun s h => h.duration) (fun s v h hv => ⟨hv, h.2⟩)
  · exact keeps_field (keeps_slice lo fresh) (fun s h => h.aggs) (fun s v h hv => ⟨h.1, hv⟩)

/-! ## The decoded values -/

structure MapsFit (a : AggMaps) : Prop where
  wf : a.Wf
  timers : ∀ p ∈ a.timers, TimerFits p.2
  events : ∀ p ∈ a.events, InI64 p.2
  errs : ∀ p ∈ a.eventErrs, InI64 p.2.count

theorem ptrMap_prop {V : Type} {P : V → Prop} {m : GoMap Str (Option V)} {zero : V} (hw : m.Wf) (h0 : P zero) (hp : ∀ p ∈ m, ∀ v, p.2 = some v → P v) :
    (ptrMap m zero).1.Wf ∧ ∀ p ∈ (ptrMap m zero).1, P p.2 := by
  unfold ptrMap
  refine ⟨?_, ?_⟩
  · unfold GoMap.Wf GoMap.keys at *
    simpa [List.map_map, Function.comp_def] using hw
  · intro p hpm
    simp only [List.mem_map] at hpm
    obtain ⟨q, h1, rfl⟩ := hpm
    cases hq : q.2 with
    | none => simpa using h0
    | some v => simpa using hp q h1 v hq

theorem RawMapsFit.view {m : Maps} (h : RawMapsFit m) : MapsFit m.view.1 := by
  have t2 := ptrMap_prop h.timers.1 timerFits_zero h.timers.2
  have r2 := ptrMap_prop (P := fun e : ErrorCounter => InI64 e.count) (zero := ErrorCounter.zero) h.errs.1 inI64_zero h.errs.2
  exact ⟨⟨t2.1, h.gauges, h.events.1, r2.1⟩, t2.2, h.events.2, r2.2⟩

structure JobFits (j : JobAgg) : Prop where
  maps : MapsFit j.maps
  timer : TimerFits j.timer
  success : InI64 j.countSuccess
  validationError : InI64 j.countValidationError
  panic : InI64 j.countPanic
  error : InI64 j.countError
  junk : InI64 j.countJunk

theorem mapsFit_init : MapsFit AggMaps.init := ⟨.init, by simp [AggMaps.init], by simp [AggMaps.init], by simp [AggMaps.init]⟩
theorem jobFits_init : JobFits JobAgg.init := ⟨mapsFit_init, timerFits_zero, inI64_zero, inI64_zero, inI64_zero, inI64_zero, inI64_zero⟩

theorem RawJobFits.view {j : Job} (h : RawJobFits j) : JobFits j.view.1 := ⟨h.maps.view, h.timer, h.success, h.validationError, h.panic, h.error, h.junk⟩

structure AggFits (a : IntAgg) : Prop where
  serial : InI64 a.serial
  jobsWf : a.jobs.Wf
  jobs : ∀ p ∈ a.jobs, JobFits p.2
  maps : MapsFit a.maps

theorem RawIntervalFits.view {a : Interval} (h : RawIntervalFits a) : AggFits a.view.agg := by
  have w' : GoMap.Wf (a.jobs.map (fun p => (p.1, p.2.map Job.view))) := by
    have := h.jobs.1
    unfold GoMap.Wf GoMap.keys at *
    simpa [List.map_map, Function.comp_def] using this
  have j2 := ptrMap_prop (P := fun v : JobAgg × Bool => JobFits v.1) (zero := (JobAgg.init, false)) w' jobFits_init (by
    intro p hp v hv
    obtain ⟨q, hq, rfl⟩ := List.mem_map.1 hp
    obtain ⟨j, hj, rfl⟩ := Option.map_eq_some_iff.1 hv
    exact (h.jobs.2 q hq j hj).view)
  refine ⟨h.serial, ?_, ?_, h.maps.view⟩
  · have := j2.1
    unfold Interval.view
    unfold GoMap.Wf GoMap.keys at *
    simpa [List.map_map, Function.comp_def] using this
  · intro p hp
    simp only [Interval.view, List.mem_map] at hp
    obtain ⟨q, h5, rfl⟩ := hp
    exact j2.2 q (by simpa using h5)

theorem unmarshal_fits {lo : Int → Int} {fresh : Nat} {body : Str} {resp : Response} (h : unmarshal lo fresh body = some resp) :
    InI64 resp.intervalDuration ∧ ∀ r, some r ∈ resp.aggs → AggFits r.agg := by
  unfold unmarshal at h
  obtain ⟨j, h1, h⟩ := Option.bind_eq_some_iff.1 h
  obtain ⟨a, h2, rfl⟩ := Option.map_eq_some_iff.1 h
  have ha := keeps_struct (keeps_answer lo fresh) Answer.zero _ _ ⟨inI64_zero, by simp [Answer.zero], by simp [Answer.zero]⟩ h2
  refine ⟨ha.duration, ?_⟩
  intro r hr
  simp only [Answer.view, List.mem_map] at hr
  obtain ⟨o, ho, he⟩ := hr
  obtain ⟨i, hi, rfl⟩ := Option.map_eq_some_iff.1 he
  exact (ha.aggs.1 o ho i hi).view

theorem inI64_eq {n : Int} (h : InI64 n) : i64 n = n := i64_of_range h.1 h.2

theorem AggFits.wf {a : IntAgg} (h : AggFits a) : a.Wf := ⟨h.jobsWf, h.maps.wf, fun p hp => (h.jobs p hp).maps.wf⟩

theorem map_i64_get {V : Type} {m : GoMap Str V} {f : V → Int} (h : ∀ p ∈ m, InI64 (f p.2)) (k : Str) :
    ((m.get? k).map f).map i64 = (m.get? k).map f := by
  cases hg : m.get? k with
  | none => rfl
  | some v => simp [inI64_eq (h _ (GoMap.mem_of_get? hg))]

theorem AggFits.range {a : IntAgg} (h : AggFits a) (c : Counter) : (value a c).map i64 = value a c := by
  have hj : ∀ (j : Str) (f : JobAgg → Option Int), (∀ ja, JobFits ja → (f ja).map i64 = f ja) → ((a.jobs.get? j).bind f).map i64 = (a.jobs.get? j).bind f := by
    intro j f hf
    cases hg : a.jobs.get? j with
    | none => rfl
    | some v => exact hf v (h.jobs _ (GoMap.mem_of_get? hg))
  have hj2 : ∀ (j : Str) (f : JobAgg → Int), (∀ ja, JobFits ja → InI64 (f ja)) → ((a.jobs.get? j).map f).map i64 = (a.jobs.get? j).map f := by
    intro j f hf
    cases hg : a.jobs.get? j with
    | none => rfl
    | some v => simp [inI64_eq (hf v (h.jobs _ (GoMap.mem_of_get? hg)))]
  cases c with
  | event ev =>
    have := map_i64_get (f := id) (m := a.maps.events) h.maps.events ev
    simpa [value] using this
  | error ev => exact map_i64_get h.maps.errs ev
  | timerCount ev => exact map_i64_get (fun p hp => (h.maps.timers p hp).count) ev
  | timerSum ev => exact map_i64_get (fun p hp => (h.maps.timers p hp).sum) ev
  | jobEvent j ev =>
    refine hj j _ (fun ja hja => ?_)
    have := map_i64_get (f := id) (m := ja.maps.events) hja.maps.events ev
    simpa using this
  | jobError j ev => exact hj j _ (fun ja hja => map_i64_get hja.maps.errs ev)
  | jobTimerCount j ev => exact hj j _ (fun ja hja => map_i64_get (fun p hp => (hja.maps.timers p hp).count) ev)
  | jobTimerSum j ev => exact hj j _ (fun ja hja => map_i64_get (fun p hp => (hja.maps.timers p hp).sum) ev)
  | jobCount j => exact hj2 j _ (fun ja hja => hja.timer.count)
  | jobSum j => exact hj2 j _ (fun ja hja => hja.timer.sum)
  | jobSuccess j => exact hj2 j _ (fun ja hja => hja.success)
  | jobValidationError j => exact hj2 j _ (fun ja hja => hja.validationError)
  | jobPanic j => exact hj2 j _ (fun ja hja => hja.panic)
  | jobErrors j => exact hj2 j _ (fun ja hja => hja.error)
  | jobJunk j => exact hj2 j _ (fun ja hja => hja.junk)

end Unmarshal

/-- whatever a host answers: what a poll leaves for the aggregation loop fits Go's types. -/
theorem decoded_of_polled {h : List Healthd.Op}
    (hp : ∀ r n1 n2, Healthd.Op.response r n1 n2 ∈ h → ∃ lo fresh host ts nanos junk e res, r = Healthd.poll lo fresh host ts nanos junk e res) : Decoded h := by
  intro r n1 n2 hm hs rep hrep
  obtain ⟨lo, fresh, host, ts, nanos, junk, e, res, rfl⟩ := hp r n1 n2 hm
  cases res with
  | failed e => cases hs.2
  | answer code body re =>
    cases re with
    | some e => cases hs.2
    | none =>
      have h2 := hs.2
      unfold Healthd.poll at h2 hrep
      simp only at h2 hrep
      cases hu : unmarshal lo fresh body with
      | none => rw [hu] at h2; cases h2
      | some resp =>
        rw [hu] at hrep
        have := (unmarshal_fits hu).2 rep hrep
        exact ⟨this.wf, this.range⟩
