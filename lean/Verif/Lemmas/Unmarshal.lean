import Verif.Model.Metrics
import Verif.Model.Unmarshal
import Verif.Spec.Metrics
import Verif.Lemmas.Json
import Verif.Lemmas.RawJson
import Verif.Lemmas.Sort
import Verif.Lemmas.Utf8
import Verif.Lemmas.TimeText
import Verif.Lemmas.Base
/-!
# Reading back the metrics JSON
-/
open Spec Unmarshal

namespace Unmarshal

theorem fix_names : fixUtf8 (bs "count") = bs "count" ∧ fixUtf8 (bs "nanos_sum") = bs "nanos_sum" ∧
    fixUtf8 (bs "nanos_sum_squares") = bs "nanos_sum_squares" ∧ fixUtf8 (bs "nanos_min") = bs "nanos_min" ∧ fixUtf8 (bs "nanos_max") = bs "nanos_max" ∧
    fixUtf8 (bs "timers") = bs "timers" ∧ fixUtf8 (bs "gauges") = bs "gauges" ∧ fixUtf8 (bs "events") = bs "events" ∧
    fixUtf8 (bs "event_errs") = bs "event_errs" ∧ fixUtf8 (bs "count_success") = bs "count_success" ∧
    fixUtf8 (bs "count_validation_error") = bs "count_validation_error" ∧ fixUtf8 (bs "count_panic") = bs "count_panic" ∧
    fixUtf8 (bs "count_error") = bs "count_error" ∧ fixUtf8 (bs "count_junk") = bs "count_junk" ∧
    fixUtf8 (bs "interval_start") = bs "interval_start" ∧ fixUtf8 (bs "serial_number") = bs "serial_number" ∧ fixUtf8 (bs "jobs") = bs "jobs" ∧
    fixUtf8 (bs "instance_id") = bs "instance_id" ∧ fixUtf8 (bs "interval_duration") = bs "interval_duration" ∧
    fixUtf8 (bs "aggregations") = bs "aggregations" := by decide +kernel

/-- the fields of an encoded struct. -/
theorem mem_view {ms : List (Str × JVal)} {k : Str} {v : JVal} (h : (k, v) ∈ ms) (hk : fixUtf8 k = k) :
    (k, v.view) ∈ ms.map (fun p => (fixUtf8 p.1, p.2.view)) := List.mem_map.2 ⟨(k, v), h, by simp [hk]⟩

theorem job_nodup (j : JobAgg) : ∀ ms, j.toJson = .obj ms → ((ms.map (fun p => (fixUtf8 p.1, p.2.view))).map (·.1)).Nodup := by
  intro ms h
  unfold JobAgg.toJson at h
  cases h
  rw [List.map_map]
  have F := fix_names
  simp only [AggMaps.fields, TimerAgg.fields, List.cons_append, List.nil_append, List.map_cons, List.map_nil, Function.comp, F]
  decide +kernel

theorem agg_nodup (start : Str) (a : IntAgg) : ∀ ms, a.toJson start = .obj ms → ((ms.map (fun p => (fixUtf8 p.1, p.2.view))).map (·.1)).Nodup := by
  intro ms h
  unfold IntAgg.toJson at h
  cases h
  rw [List.map_map]
  have F := fix_names
  simp only [AggMaps.fields, List.cons_append, List.nil_append, List.map_cons, List.map_nil, Function.comp, F]
  decide +kernel

/-! ## Leaves -/

theorem decInt_raw (v : Int) {n : Int} (h : InI64 n) : decInt v (JVal.int n).raw = some n := by
  have hd : ∀ m, ∀ c ∈ natStr m, c ≠ 46 ∧ c ≠ 69 ∧ c ≠ 101 := by
    intro m c hc
    have := (natStr_spec m).2.1 c hc
    unfold IsDigit at this
    refine ⟨?_, ?_, ?_⟩ <;> rintro rfl <;> revert this <;> decide
  have ht : (intStr n).all (fun c => c ≠ 46 ∧ c ≠ 69 ∧ c ≠ 101) = true := by
    rw [List.all_eq_true]
    intro c hc
    refine decide_eq_true ?_
    unfold intStr at hc
    split at hc
    · rcases List.mem_cons.1 hc with rfl | hc
      · decide
      · exact hd _ c hc
    · exact hd _ c hc
  rw [JVal.raw, decInt, if_pos]
  · rfl
  · have e1 : ((n : ℚ)).den = 1 := rfl
    have e2 : ((n : ℚ)).num = n := rfl
    rw [e1, e2]
    exact ⟨ht, rfl, h.1, h.2⟩

theorem decFloat_raw (w : F64) {v : F64} (h : Finite64 v) : decFloat w (JVal.float v).raw = some v := by
  have hr := decVal_roundtrip v h.1 h.2
  rw [JVal.raw, decFloat, hr]
  by_cases hz : v = .negZero
  · subst hz
    rw [if_pos rfl]
    have : (JVal.floatStr .negZero).head? = some 45 := by decide +kernel
    simp [this]
  · rw [if_neg hz]
    have hf := h.1
    cases v with
    | nan => simp [F64.isFinite] at hf
    | inf s => simp [F64.isFinite] at hf
    | negZero => exact absurd rfl hz
    | fin q =>
      simp only
      rw [if_neg]
      rintro ⟨e, h2⟩
      rw [e] at h2
      revert h2
      decide +kernel

theorem decStr_raw (w : Str) {s : Str} (h : IsUtf8 s) : decStr w (JVal.str s).raw = some s := by
  rw [JVal.raw, decStr, fixUtf8_of_utf8 h]

/-! ## Maps and structs -/

theorem foldlM_set {V : Type} (dec : Raw → Option V) (g : Str → V) (ps : List (Str × Raw)) (m : GoMap Str V)
    (h : ∀ p ∈ ps, dec p.2 = some (g p.1)) :
    ps.foldlM (fun m p => (dec p.2).map (fun v => m.set p.1 v)) m = some (ps.foldl (fun m p => m.set p.1 (g p.1)) m) := by
  induction ps generalizing m with
  | nil => rfl
  | cons p t ih =>
    rw [List.foldlM_cons, h p (by simp)]
    exact ih _ (fun q hq => h q (by simp [hq]))

theorem foldl_set_get {V : Type} (g : Str → V) (ps : List (Str × Raw)) (m : GoMap Str V) (k : Str) :
    (ps.foldl (fun m p => m.set p.1 (g p.1)) m).get? k = if k ∈ ps.map (·.1) then some (g k) else m.get? k := by
  induction ps generalizing m with
  | nil => simp
  | cons p t ih =>
    rw [List.foldl_cons, ih, GoMap.get?_set]
    by_cases h1 : k ∈ t.map (·.1)
    · simp only [List.map_cons, List.mem_cons, h1, or_true, if_true]
    · by_cases h2 : k = p.1
      · subst h2; simp [h1]
      · simp only [List.map_cons, List.mem_cons, h1, h2, or_self, if_false]

theorem foldl_set_wf {V : Type} (g : Str → V) (ps : List (Str × Raw)) (m : GoMap Str V) (h : m.Wf) :
    (ps.foldl (fun m p => m.set p.1 (g p.1)) m).Wf := by
  induction ps generalizing m with
  | nil => exact h
  | cons p t ih => exact ih _ (GoMap.Wf.set h _ _)

/-- a map reads back entry by entry. -/
theorem decMap_mapJson {V W : Type} [Inhabited W] (enc : V → JVal) (dec : Dec W) (zero : W) (g : V → W) (m : GoMap Str V)
    (hu : ∀ k v, m.get? k = some v → IsUtf8 k ∧ dec zero (enc v).raw = some (g v)) :
    ∃ M, decMap dec zero [] (mapJson enc m).raw = some M ∧ M.Wf ∧ ∀ k, M.get? k = (m.get? k).map g := by
  unfold mapJson
  rw [JVal.raw, JVal.rawMembers_eq, decMap]
  let G : Str → W := fun k => match m.get? k with | some v => g v | none => default
  have hdec := foldlM_set (dec zero) G
    (List.map (fun p => (fixUtf8 p.1, p.2.raw)) ((sortStrs m.keys).filterMap (fun k => (m.get? k).map (fun v => (k, enc v))))) [] (by
      intro p hp
      obtain ⟨q, hq, rfl⟩ := List.mem_map.1 hp
      obtain ⟨k, _, hk⟩ := List.mem_filterMap.1 hq
      obtain ⟨v, hv, rfl⟩ := Option.map_eq_some_iff.1 hk
      obtain ⟨h1, h2⟩ := hu k v hv
      simp only [fixUtf8_of_utf8 h1, h2, G, hv])
  refine ⟨_, hdec, foldl_set_wf _ _ _ (by simp [GoMap.Wf, GoMap.keys]), ?_⟩
  intro k
  rw [foldl_set_get]
  cases hk : m.get? k with
  | none =>
    rw [if_neg]
    · rfl
    · intro hmem
      simp only [List.map_map, List.mem_map, Function.comp] at hmem
      obtain ⟨q, hq, hqk⟩ := hmem
      obtain ⟨k', _, hk'⟩ := List.mem_filterMap.1 hq
      obtain ⟨v, hv, rfl⟩ := Option.map_eq_some_iff.1 hk'
      rw [fixUtf8_of_utf8 (hu k' v hv).1] at hqk
      subst hqk
      rw [hk] at hv; cases hv
  | some v =>
    rw [if_pos]
    · simp [G, hk]
    · simp only [List.map_map, List.mem_map, Function.comp]
      refine ⟨(k, enc v), List.mem_filterMap.2 ⟨k, (sortStrs_perm m.keys).mem_iff.2 (GoMap.mem_keys_of_get? hk), by simp [hk]⟩, ?_⟩
      exact fixUtf8_of_utf8 (hu k v hk).1

/-- which field a member is stored to. -/
theorem store_at {S : Type} {fields : List (Str × Dec S)} {names : List Str} (hn : fields.map (·.1) = names) {name : Str} {i : Nat}
    (hi : names.findIdx? (fun n => foldName n = foldName name) = some i) {f : Str × Dec S} (hf : fields[i]? = some f) (s : S) (r : Raw) :
    store fields s (name, r) = f.2 s r := by
  have key : fields.find? (fun f => foldName f.1 = foldName name) = some f := by
    rw [← hn, List.findIdx?_map] at hi
    rw [List.find?_eq_bind_findIdx?_getElem?]
    have e : (fun f : Str × Dec S => decide (foldName f.1 = foldName name)) = (fun n : Str => decide (foldName n = foldName name)) ∘ (·.1) := rfl
    rw [e, hi]
    exact hf
  unfold store
  rw [key]

theorem foldlM_embedded {S T : Type} {fields : List (Str × Dec S)} {sub : List (Str × Dec T)} (get : S → T) (put : S → T → S)
    (h1 : ∀ s t, get (put s t) = t) (h2 : ∀ s t t', put (put s t) t' = put s t') (h3 : ∀ s, put s (get s) = s) (ms : List (Str × Raw))
    (h : ∀ p ∈ ms, ∀ s, store fields s p = (store sub (get s) p).map (put s)) (s : S) :
    ms.foldlM (store fields) s = (ms.foldlM (store sub) (get s)).map (put s) := by
  induction ms generalizing s with
  | nil => simp [h3]
  | cons p t ih =>
    rw [List.foldlM_cons, List.foldlM_cons, h p (by simp)]
    cases store sub (get s) p with
    | none => rfl
    | some v =>
      simp only [Option.map_some, Option.bind_eq_bind, Option.bind_some]
      rw [ih (fun q hq => h q (by simp [hq])), h1]
      congr 1
      funext t'
      exact h2 s v t'

theorem foldlM_ok {S : Type} {fields : List (Str × Dec S)} {s t : S} {p : Str × Raw} {ms : List (Str × Raw)} (h : store fields s p = some t) :
    (p :: ms).foldlM (store fields) s = ms.foldlM (store fields) t := by
  rw [List.foldlM_cons, h]; rfl

/-! ## The structs -/

theorem rawFields_timer (t : TimerAgg) : t.fields.map (fun p => (fixUtf8 p.1, p.2.raw)) =
    [(bs "count", (JVal.int t.count).raw), (bs "nanos_sum", (JVal.int t.nanosSum).raw), (bs "nanos_sum_squares", (JVal.float t.nanosSumSquares).raw),
     (bs "nanos_min", (JVal.int t.nanosMin).raw), (bs "nanos_max", (JVal.int t.nanosMax).raw)] := by
  simp only [TimerAgg.fields, List.map_cons, List.map_nil, fix_names]

theorem rawFields_maps (a : AggMaps) : a.fields.map (fun p => (fixUtf8 p.1, p.2.raw)) =
    [(bs "timers", (mapJson (fun t => .obj t.fields) a.timers).raw), (bs "gauges", (mapJson .float a.gauges).raw),
     (bs "events", (mapJson .int a.events).raw), (bs "event_errs", (mapJson ErrorCounter.toJson a.eventErrs).raw)] := by
  simp only [AggMaps.fields, List.map_cons, List.map_nil, fix_names]

theorem timerFields_spec {t : TimerAgg} (ht : TimerOk t) (t0 : TimerAgg) :
    (t.fields.map (fun p => (fixUtf8 p.1, p.2.raw))).foldlM (store timerFields) t0 = some t := by
  rw [rawFields_timer]
  rw [foldlM_ok (t := { t0 with count := t.count }) (by rw [store_at rfl (i := 0) (by decide +kernel) rfl]; simp [fieldOf, decInt_raw _ ht.count]),
    foldlM_ok (t := { t0 with count := t.count, nanosSum := t.nanosSum }) (by rw [store_at rfl (i := 1) (by decide +kernel) rfl]; simp [fieldOf, decInt_raw _ ht.sum]),
    foldlM_ok (t := { t0 with count := t.count, nanosSum := t.nanosSum, nanosSumSquares := t.nanosSumSquares })
      (by rw [store_at rfl (i := 2) (by decide +kernel) rfl]; simp [fieldOf, decFloat_raw _ ht.squares]),
    foldlM_ok (t := { t0 with count := t.count, nanosSum := t.nanosSum, nanosSumSquares := t.nanosSumSquares, nanosMin := t.nanosMin })
      (by rw [store_at rfl (i := 3) (by decide +kernel) rfl]; simp [fieldOf, decInt_raw _ ht.min]),
    foldlM_ok (t := t) (by rw [store_at rfl (i := 4) (by decide +kernel) rfl]; simp [fieldOf, decInt_raw _ ht.max])]
  rfl

theorem timer_spec {t : TimerAgg} (ht : TimerOk t) (t0 : TimerAgg) : decStruct timerFields t0 (JVal.obj t.fields).raw = some t := by
  rw [JVal.raw, JVal.rawMembers_eq, decStruct]
  exact timerFields_spec ht t0

theorem errorCounter_spec {e : ErrorCounter} (h : InI64 e.count) :
    decStruct errorCounterFields ErrorCounter.zero e.toJson.raw = some { ErrorCounter.zero with count := e.count } := by
  unfold ErrorCounter.toJson
  rw [JVal.raw, JVal.rawMembers_eq, decStruct]
  simp only [List.map_cons, List.map_nil, fix_names]
  rw [foldlM_ok (t := { ErrorCounter.zero with count := e.count }) (by rw [store_at rfl (i := 0) (by decide +kernel) rfl]; simp [fieldOf, decInt_raw _ h])]
  rfl

theorem ptrMap_spec {V : Type} (m : GoMap Str (Option V)) (zero : V) (n : Str → Option V) (h : ∀ k, m.get? k = (n k).map some) (hw : m.Wf) :
    (∀ k, (ptrMap m zero).1.get? k = n k) ∧ (ptrMap m zero).2 = false := by
  constructor
  · intro k
    unfold ptrMap
    simp only
    rw [GoMap.get?_map (f := fun v : Option V => v.getD zero), h]
    cases n k <;> rfl
  · unfold ptrMap
    simp only [List.any_eq_false]
    intro p hp
    have h1 := GoMap.get?_of_mem hw hp
    rw [h] at h1
    obtain ⟨v, hv, he⟩ := Option.map_eq_some_iff.1 h1
    rw [← he]; simp

theorem decPtr_obj {V : Type} (dec : Dec V) (zero : V) (ms : List (Str × JVal)) : decPtr dec zero none (JVal.obj ms).raw = (dec zero (JVal.obj ms).raw).map some := by
  rw [JVal.raw]; rfl

theorem mapsFields_spec {a : AggMaps} (ha : MapsOk a) :
    ∃ M, (a.fields.map (fun p => (fixUtf8 p.1, p.2.raw))).foldlM (store mapsFields) Maps.zero = some M ∧ M.view.2 = false ∧ MapsAgree a M.view.1 := by
  haveI : Inhabited (Option TimerAgg) := ⟨none⟩
  haveI : Inhabited (Option ErrorCounter) := ⟨none⟩
  haveI : Inhabited F64 := ⟨.nan⟩
  obtain ⟨M1, e1, w1, g1⟩ := decMap_mapJson (W := Option TimerAgg) (fun t : TimerAgg => JVal.obj t.fields) (decPtr (decStruct timerFields) TimerAgg.zero) none
    some a.timers (fun k v hkv => ⟨(ha.timers.2 k v hkv).1, by rw [decPtr_obj, timer_spec (ha.timers.2 k v hkv).2]; rfl⟩)
  obtain ⟨M2, e2, w2, g2⟩ := decMap_mapJson (W := F64) JVal.float decFloat (.fin 0) id a.gauges
    (fun k v hkv => ⟨(ha.gauges.2 k v hkv).1, decFloat_raw _ (ha.gauges.2 k v hkv).2⟩)
  obtain ⟨M3, e3, w3, g3⟩ := decMap_mapJson (W := Int) JVal.int decInt 0 id a.events
    (fun k v hkv => ⟨(ha.events.2 k v hkv).1, decInt_raw _ (ha.events.2 k v hkv).2⟩)
  obtain ⟨M4, e4, w4, g4⟩ := decMap_mapJson (W := Option ErrorCounter) ErrorCounter.toJson (decPtr (decStruct errorCounterFields) ErrorCounter.zero) none
    (fun e => some { ErrorCounter.zero with count := e.count }) a.eventErrs
    (fun k v hkv => ⟨(ha.errs.2 k v hkv).1, by
      have := errorCounter_spec (ha.errs.2 k v hkv).2
      unfold ErrorCounter.toJson at this ⊢
      rw [decPtr_obj, this]; rfl⟩)
  obtain ⟨t1, t2⟩ := ptrMap_spec M1 TimerAgg.zero (fun k => a.timers.get? k) g1 w1
  obtain ⟨c1, c2⟩ := ptrMap_spec M4 ErrorCounter.zero (fun k => (a.eventErrs.get? k).map (fun e => { ErrorCounter.zero with count := e.count }))
    (fun k => by rw [g4, Option.map_map]; rfl) w4
  refine ⟨⟨M1, M2, M3, M4⟩, ?_, ?_, ?_⟩
  · rw [rawFields_maps]
    rw [foldlM_ok (t := { Maps.zero with timers := M1 }) (by rw [store_at rfl (i := 0) (by decide +kernel) rfl]; simp [fieldOf, Maps.zero, e1]),
      foldlM_ok (t := { Maps.zero with timers := M1, gauges := M2 }) (by rw [store_at rfl (i := 1) (by decide +kernel) rfl]; simp [fieldOf, Maps.zero, e2]),
      foldlM_ok (t := { Maps.zero with timers := M1, gauges := M2, events := M3 }) (by rw [store_at rfl (i := 2) (by decide +kernel) rfl]; simp [fieldOf, Maps.zero, e3]),
      foldlM_ok (t := ⟨M1, M2, M3, M4⟩) (by rw [store_at rfl (i := 3) (by decide +kernel) rfl]; simp [fieldOf, Maps.zero, e4])]
    rfl
  · simp only [Maps.view, t2, c2, Bool.or_self]
  · exact ⟨t1, fun k => by rw [Maps.view, g2]; simp, fun k => by rw [Maps.view, g3]; simp, fun k => by rw [Maps.view, c1]; cases a.eventErrs.get? k <;> rfl⟩

theorem job_spec {j : JobAgg} (hj : JobOk j) : ∃ b, decStruct jobFields Job.zero j.toJson.raw = some b ∧ b.view.2 = false ∧ JobAgrees j b.view.1 := by
  obtain ⟨M, m1, m2, m3⟩ := mapsFields_spec hj.maps
  refine ⟨⟨M, j.timer, j.countSuccess, j.countValidationError, j.countPanic, j.countError, j.countJunk⟩, ?_, m2, ⟨m3, rfl, rfl, rfl, rfl, rfl, rfl⟩⟩
  unfold JobAgg.toJson
  rw [JVal.raw, JVal.rawMembers_eq, decStruct, List.map_append, List.map_append, List.foldlM_append, List.foldlM_append]
  have k1 := foldlM_embedded (fields := jobFields) (sub := mapsFields) (fun s : Job => s.maps) (fun s v => { s with maps := v }) (fun _ _ => rfl) (fun _ _ _ => rfl)
    (fun _ => rfl) (j.maps.fields.map (fun p => (fixUtf8 p.1, p.2.raw))) (by
      rw [rawFields_maps]
      intro p hp s
      simp only [List.mem_cons, List.not_mem_nil, or_false] at hp
      rcases hp with rfl | rfl | rfl | rfl
      · rw [store_at (fields := jobFields) rfl (i := 0) (by decide +kernel) rfl, store_at (fields := mapsFields) rfl (i := 0) (by decide +kernel) rfl]; rfl
      · rw [store_at (fields := jobFields) rfl (i := 1) (by decide +kernel) rfl, store_at (fields := mapsFields) rfl (i := 1) (by decide +kernel) rfl]; rfl
      · rw [store_at (fields := jobFields) rfl (i := 2) (by decide +kernel) rfl, store_at (fields := mapsFields) rfl (i := 2) (by decide +kernel) rfl]; rfl
      · rw [store_at (fields := jobFields) rfl (i := 3) (by decide +kernel) rfl, store_at (fields := mapsFields) rfl (i := 3) (by decide +kernel) rfl]; rfl) Job.zero
  have k2 : ∀ s : Job, (j.timer.fields.map (fun p => (fixUtf8 p.1, p.2.raw))).foldlM (store jobFields) s = some { s with timer := j.timer } := by
    intro s
    rw [foldlM_embedded (fields := jobFields) (sub := timerFields) (fun s : Job => s.timer) (fun s v => { s with timer := v }) (fun _ _ => rfl) (fun _ _ _ => rfl)
      (fun _ => rfl) (j.timer.fields.map (fun p => (fixUtf8 p.1, p.2.raw))) (by
      rw [rawFields_timer]
      intro p hp s
      simp only [List.mem_cons, List.not_mem_nil, or_false] at hp
      rcases hp with rfl | rfl | rfl | rfl | rfl
      · rw [store_at (fields := jobFields) rfl (i := 4) (by decide +kernel) rfl, store_at (fields := timerFields) rfl (i := 0) (by decide +kernel) rfl]; rfl
      · rw [store_at (fields := jobFields) rfl (i := 5) (by decide +kernel) rfl, store_at (fields := timerFields) rfl (i := 1) (by decide +kernel) rfl]; rfl
      · rw [store_at (fields := jobFields) rfl (i := 6) (by decide +kernel) rfl, store_at (fields := timerFields) rfl (i := 2) (by decide +kernel) rfl]; rfl
      · rw [store_at (fields := jobFields) rfl (i := 7) (by decide +kernel) rfl, store_at (fields := timerFields) rfl (i := 3) (by decide +kernel) rfl]; rfl
      · rw [store_at (fields := jobFields) rfl (i := 8) (by decide +kernel) rfl, store_at (fields := timerFields) rfl (i := 4) (by decide +kernel) rfl]; rfl) s,
      timerFields_spec hj.timer]
    rfl
  rw [k1, show Job.zero.maps = Maps.zero from rfl, m1]
  simp only [Option.map_some, Option.bind_eq_bind, Option.bind_some, k2]
  simp only [List.map_cons, List.map_nil, fix_names]
  rw [foldlM_ok (t := { Job.zero with maps := M, timer := j.timer, countSuccess := j.countSuccess })
      (by rw [store_at rfl (i := 9) (by decide +kernel) rfl]; simp [fieldOf, Job.zero, decInt_raw _ hj.counts.1]),
    foldlM_ok (t := { Job.zero with maps := M, timer := j.timer, countSuccess := j.countSuccess, countValidationError := j.countValidationError })
      (by rw [store_at rfl (i := 10) (by decide +kernel) rfl]; simp [fieldOf, Job.zero, decInt_raw _ hj.counts.2.1]),
    foldlM_ok (t := { Job.zero with maps := M, timer := j.timer, countSuccess := j.countSuccess, countValidationError := j.countValidationError, countPanic := j.countPanic })
      (by rw [store_at rfl (i := 11) (by decide +kernel) rfl]; simp [fieldOf, Job.zero, decInt_raw _ hj.counts.2.2.1]),
    foldlM_ok (t := { Job.zero with maps := M, timer := j.timer, countSuccess := j.countSuccess, countValidationError := j.countValidationError, countPanic := j.countPanic, countError := j.countError })
      (by rw [store_at rfl (i := 12) (by decide +kernel) rfl]; simp [fieldOf, Job.zero, decInt_raw _ hj.counts.2.2.2.1]),
    foldlM_ok (t := ⟨M, j.timer, j.countSuccess, j.countValidationError, j.countPanic, j.countError, j.countJunk⟩)
      (by rw [store_at rfl (i := 13) (by decide +kernel) rfl]; simp [fieldOf, Job.zero, decInt_raw _ hj.counts.2.2.2.2])]
  rfl

theorem intervalFields_names (lo : Int → Int) (fresh : Nat) : (intervalFields lo fresh).map (·.1) =
    [bs "interval_start", bs "serial_number", bs "jobs", bs "timers", bs "gauges", bs "events", bs "event_errs"] := rfl

theorem interval_store (lo : Int → Int) (fresh : Nat) {i : Nat} {name : Str} {f : Str × Dec Maps}
    (h1 : mapsFields[i]? = some f) (h2 : (mapsFields.map (·.1)).findIdx? (fun n => foldName n = foldName name) = some i)
    (h3 : [bs "interval_start", bs "serial_number", bs "jobs", bs "timers", bs "gauges", bs "events", bs "event_errs"].findIdx? (fun n => foldName n = foldName name) = some (i + 3))
    (s : Interval) (r : Raw) : store (intervalFields lo fresh) s (name, r) = (store mapsFields s.maps (name, r)).map (fun v => { s with maps := v }) := by
  have h4 : (intervalFields lo fresh)[i + 3]? = some (fieldOf f.1 f.2 (fun s : Interval => s.maps) (fun s v => { s with maps := v })) := by
    unfold intervalFields
    rw [List.getElem?_append_right (by simp)]
    unfold embedded
    simp [h1]
  rw [store_at (intervalFields_names lo fresh) h3 h4, store_at rfl h2 h1]
  rfl

theorem interval_maps (lo : Int → Int) (fresh : Nat) (a : AggMaps) (s : Interval) :
    (a.fields.map (fun p => (fixUtf8 p.1, p.2.raw))).foldlM (store (intervalFields lo fresh)) s =
      ((a.fields.map (fun p => (fixUtf8 p.1, p.2.raw))).foldlM (store mapsFields) s.maps).map (fun v => { s with maps := v }) := by
  refine foldlM_embedded (fields := intervalFields lo fresh) (sub := mapsFields) (fun s : Interval => s.maps) (fun s v => { s with maps := v }) (fun _ _ => rfl)
    (fun _ _ _ => rfl) (fun _ => rfl) _ ?_ s
  rw [rawFields_maps]
  intro p hp s
  simp only [List.mem_cons, List.not_mem_nil, or_false] at hp
  rcases hp with rfl | rfl | rfl | rfl
  · exact interval_store lo fresh (i := 0) rfl (by decide +kernel) (by decide +kernel) s _
  · exact interval_store lo fresh (i := 1) rfl (by decide +kernel) (by decide +kernel) s _
  · exact interval_store lo fresh (i := 2) rfl (by decide +kernel) (by decide +kernel) s _
  · exact interval_store lo fresh (i := 3) rfl (by decide +kernel) (by decide +kernel) s _

theorem report_spec {a : IntAgg} (ha : AggOk a) {start : Str} {off : Int} (hstart : readTime start = some (a.start.ns, off))
    (hu : (runes start).flatMap JVal.escRune = start) (hZ : start.getLast? = some 90 ↔ off = 0) (lo : Int → Int) (fresh : Nat) :
    ∃ b, decStruct (intervalFields lo fresh) Interval.zero (a.toJson start).raw = some b ∧ b.view.hasNil = false ∧ AggAgrees a b.view.agg ∧
      b.view.agg.start.loc = locOf lo fresh (decide (off = 0)) a.start.ns off := by
  obtain ⟨M, m1, m2, m3⟩ := mapsFields_spec ha.maps
  haveI : Inhabited (Option Job) := ⟨none⟩
  obtain ⟨J, e, w, g⟩ := decMap_mapJson (W := Option Job) JobAgg.toJson (decPtr (decStruct jobFields) Job.zero) none
    (fun v => decStruct jobFields Job.zero v.toJson.raw) a.jobs (fun k v hkv => by
      obtain ⟨b', hb', _⟩ := job_spec (ha.jobs.2 k v hkv).2
      refine ⟨(ha.jobs.2 k v hkv).1, ?_⟩
      rw [hb']
      unfold JobAgg.toJson at hb' ⊢
      rw [decPtr_obj, hb']; rfl)
  refine ⟨⟨⟨a.start.ns, locOf lo fresh (decide (off = 0)) a.start.ns off⟩, a.serial, J, M⟩, ?_, ?_, ?_, rfl⟩
  · unfold IntAgg.toJson
    rw [JVal.raw, JVal.rawMembers_eq, decStruct, List.map_append, List.foldlM_append]
    have ht : decTime lo fresh ⟨0, 0⟩ (JVal.str start).raw = some ⟨a.start.ns, locOf lo fresh (decide (off = 0)) a.start.ns off⟩ := by
      rw [JVal.raw, decTime, hu, hstart, decide_eq_decide.2 hZ]; rfl
    simp only [List.map_cons, List.map_nil, fix_names]
    rw [foldlM_ok (t := { Interval.zero with start := ⟨a.start.ns, locOf lo fresh (decide (off = 0)) a.start.ns off⟩ })
        (by rw [store_at (intervalFields_names lo fresh) (i := 0) (by decide +kernel) rfl]; simp [fieldOf, Interval.zero, ht]),
      foldlM_ok (t := { Interval.zero with start := ⟨a.start.ns, locOf lo fresh (decide (off = 0)) a.start.ns off⟩, serial := a.serial })
        (by rw [store_at (intervalFields_names lo fresh) (i := 1) (by decide +kernel) rfl]; simp [fieldOf, Interval.zero, decInt_raw _ ha.serial]),
      foldlM_ok (t := { Interval.zero with start := ⟨a.start.ns, locOf lo fresh (decide (off = 0)) a.start.ns off⟩, serial := a.serial, jobs := J })
        (by rw [store_at (intervalFields_names lo fresh) (i := 2) (by decide +kernel) rfl]; simp [fieldOf, Interval.zero, e])]
    simp only [List.foldlM_nil, Option.pure_def, Option.bind_eq_bind, Option.bind_some, interval_maps]
    show Option.map _ (List.foldlM (store mapsFields) Maps.zero _) = _
    rw [m1]
    rfl
  all_goals
    have hM : ∀ k, GoMap.get? (J.map (fun p => (p.1, p.2.map Job.view))) k = ((a.jobs.get? k).bind (fun v => (decStruct jobFields Job.zero v.toJson.raw).map Job.view)).map some := by
      intro k
      rw [GoMap.get?_map (f := fun v : Option Job => v.map Job.view), g]
      cases hk : a.jobs.get? k with
      | none => rfl
      | some v =>
        obtain ⟨b', hb', _⟩ := job_spec (ha.jobs.2 k v hk).2
        simp [hb']
    have w' : GoMap.Wf (J.map (fun p => (p.1, p.2.map Job.view))) := by
      unfold GoMap.Wf GoMap.keys at *
      simpa [List.map_map, Function.comp_def] using w
    obtain ⟨c1, c2⟩ := ptrMap_spec (J.map (fun p => (p.1, p.2.map Job.view))) (JobAgg.init, false) _ hM w'
  · have hfalse : (ptrMap (J.map (fun p => (p.1, p.2.map Job.view))) (JobAgg.init, false)).1.any (fun p => p.2.2) = false := by
      rw [List.any_eq_false]
      intro p hp
      have hw' : (ptrMap (J.map (fun p => (p.1, p.2.map Job.view))) (JobAgg.init, false)).1.Wf := by
        unfold ptrMap GoMap.Wf GoMap.keys
        unfold GoMap.Wf GoMap.keys at w'
        simpa [List.map_map, Function.comp_def] using w'
      have := GoMap.get?_of_mem hw' (k := p.1) (v := p.2) hp
      rw [c1] at this
      obtain ⟨v, hv, hv'⟩ := Option.bind_eq_some_iff.1 this
      obtain ⟨b', hb', hb2, _⟩ := job_spec (ha.jobs.2 p.1 v hv).2
      rw [hb'] at hv'
      rw [← Option.some.inj hv', hb2]
      simp
    simp only [Interval.view, c2, hfalse, m2, Bool.or_self]
  · refine ⟨rfl, rfl, ?_, m3⟩
    intro k
    simp only [Interval.view]
    rw [GoMap.get?_map (f := fun v : JobAgg × Bool => v.1), c1]
    cases hk : a.jobs.get? k with
    | none => exact .inl ⟨rfl, rfl⟩
    | some v =>
      obtain ⟨b', hb', _, hs'⟩ := job_spec (ha.jobs.2 k v hk).2
      exact .inr ⟨v, b'.view.1, rfl, by simp [hb'], hs'⟩

/-! ## Nesting -/

theorem depthMembers_le {n : Nat} (ms : List (Str × Raw)) (h : ∀ p ∈ ms, p.2.depth ≤ n) : Raw.depthMembers ms ≤ n := by
  induction ms with
  | nil => simp [Raw.depthMembers]
  | cons p t ih =>
    obtain ⟨k, v⟩ := p
    rw [Raw.depthMembers]
    exact max_le (h (k, v) (by simp)) (ih (fun q hq => h q (by simp [hq])))
theorem depthElems_le {n : Nat} (xs : List Raw) (h : ∀ x ∈ xs, x.depth ≤ n) : Raw.depthElems xs ≤ n := by
  induction xs with
  | nil => simp [Raw.depthElems]
  | cons x t ih =>
    rw [Raw.depthElems]
    exact max_le (h x (by simp)) (ih (fun q hq => h q (by simp [hq])))
theorem depth_obj {n : Nat} (ms : List (Str × JVal)) (h : ∀ p ∈ ms, p.2.raw.depth ≤ n) : (JVal.obj ms).raw.depth ≤ n + 1 := by
  rw [JVal.raw, JVal.rawMembers_eq, Raw.depth]
  have := depthMembers_le (n := n) (ms.map (fun p => (fixUtf8 p.1, p.2.raw))) (by
    intro p hp
    obtain ⟨q, hq, rfl⟩ := List.mem_map.1 hp
    exact h q hq)
  omega
theorem depth_arr {n : Nat} (xs : List JVal) (h : ∀ x ∈ xs, x.raw.depth ≤ n) : (JVal.arr xs).raw.depth ≤ n + 1 := by
  rw [JVal.raw, JVal.rawElems_eq, Raw.depth]
  have := depthElems_le (n := n) (xs.map JVal.raw) (by
    intro p hp
    obtain ⟨q, hq, rfl⟩ := List.mem_map.1 hp
    exact h q hq)
  omega
theorem depth_mapJson {V : Type} {n : Nat} (f : V → JVal) (m : GoMap Str V) (h : ∀ v, (f v).raw.depth ≤ n) : (mapJson f m).raw.depth ≤ n + 1 := by
  unfold mapJson
  apply depth_obj
  intro p hp
  obtain ⟨k, _, hk⟩ := List.mem_filterMap.1 hp
  obtain ⟨v, _, rfl⟩ := Option.map_eq_some_iff.1 hk
  exact h v
theorem depth_int (n : Int) (m : Nat) : (JVal.int n).raw.depth ≤ m := by rw [JVal.raw, Raw.depth] <;> simp
theorem depth_float (v : F64) (m : Nat) : (JVal.float v).raw.depth ≤ m := by rw [JVal.raw, Raw.depth] <;> simp
theorem depth_str (s : Str) (m : Nat) : (JVal.str s).raw.depth ≤ m := by rw [JVal.raw, Raw.depth] <;> simp
theorem depth_timer (t : TimerAgg) : ∀ p ∈ t.fields, p.2.raw.depth ≤ 0 := by
  intro p hp
  simp only [TimerAgg.fields, List.mem_cons, List.not_mem_nil, or_false] at hp
  rcases hp with rfl | rfl | rfl | rfl | rfl
  all_goals first | exact depth_int _ _ | exact depth_float _ _
theorem depth_maps (a : AggMaps) : ∀ p ∈ a.fields, p.2.raw.depth ≤ 2 := by
  intro p hp
  simp only [AggMaps.fields, List.mem_cons, List.not_mem_nil, or_false] at hp
  rcases hp with rfl | rfl | rfl | rfl
  · exact depth_mapJson _ _ (fun t => depth_obj _ (depth_timer t))
  · exact depth_mapJson _ _ (fun v => depth_float _ _)
  · exact depth_mapJson _ _ (fun v => depth_int _ _)
  · refine depth_mapJson _ _ (fun e => depth_obj _ ?_)
    intro p hp
    simp only [List.mem_cons, List.not_mem_nil, or_false] at hp
    subst hp
    exact depth_int _ _
theorem depth_job (j : JobAgg) : j.toJson.raw.depth ≤ 3 := by
  unfold JobAgg.toJson
  apply depth_obj
  intro p hp
  rcases List.mem_append.1 hp with hp | hp
  · rcases List.mem_append.1 hp with hp | hp
    · exact depth_maps _ p hp
    · exact (depth_timer _ p hp).trans (by omega)
  · simp only [List.mem_cons, List.not_mem_nil, or_false] at hp
    rcases hp with rfl | rfl | rfl | rfl | rfl <;> exact depth_int _ _
theorem depth_agg (a : IntAgg) (s : Str) : (a.toJson s).raw.depth ≤ 5 := by
  unfold IntAgg.toJson
  apply depth_obj
  intro p hp
  rcases List.mem_append.1 hp with hp | hp
  · simp only [List.mem_cons, List.not_mem_nil, or_false] at hp
    rcases hp with rfl | rfl | rfl
    · exact depth_str _ _
    · exact depth_int _ _
    · exact depth_mapJson _ _ depth_job
  · exact (depth_maps _ p hp).trans (by omega)

/-! ## Encodable -/

mutual
theorem firstBad_none (v : JVal) : v.firstBad = none ↔ v.encodable = true := by
  match v with
  | .null => simp [JVal.firstBad, JVal.encodable]
  | .bool _ => simp [JVal.firstBad, JVal.encodable]
  | .int _ => simp [JVal.firstBad, JVal.encodable]
  | .str _ => simp [JVal.firstBad, JVal.encodable]
  | .float f => cases f <;> simp [JVal.firstBad, JVal.encodable, JVal.badText, F64.isFinite]
  | .arr xs => rw [JVal.firstBad, JVal.encodable]; exact firstBadElems_none xs
  | .obj ms => rw [JVal.firstBad, JVal.encodable]; exact firstBadMembers_none ms
theorem firstBadElems_none (xs : List JVal) : JVal.firstBadElems xs = none ↔ JVal.encodableElems xs = true := by
  match xs with
  | [] => simp [JVal.firstBadElems, JVal.encodableElems]
  | x :: xs =>
    rw [JVal.firstBadElems, JVal.encodableElems, Bool.and_eq_true, ← firstBad_none x, ← firstBadElems_none xs]
    cases JVal.firstBad x <;> simp
theorem firstBadMembers_none (ms : List (Str × JVal)) : JVal.firstBadMembers ms = none ↔ JVal.encodableMembers ms = true := by
  match ms with
  | [] => simp [JVal.firstBadMembers, JVal.encodableMembers]
  | (_, x) :: xs =>
    rw [JVal.firstBadMembers, JVal.encodableMembers, Bool.and_eq_true, ← firstBad_none x, ← firstBadMembers_none xs]
    cases JVal.firstBad x <;> simp
end

theorem encodableMembers_iff (ms : List (Str × JVal)) : JVal.encodableMembers ms = true ↔ ∀ p ∈ ms, p.2.encodable = true := by
  induction ms with
  | nil => simp [JVal.encodableMembers]
  | cons p t ih => obtain ⟨k, v⟩ := p; rw [JVal.encodableMembers, Bool.and_eq_true, ih]; simp
theorem encodableElems_iff (xs : List JVal) : JVal.encodableElems xs = true ↔ ∀ x ∈ xs, x.encodable = true := by
  induction xs with
  | nil => simp [JVal.encodableElems]
  | cons p t ih => rw [JVal.encodableElems, Bool.and_eq_true, ih]; simp

theorem mapJson_encodable {V : Type} (f : V → JVal) (m : GoMap Str V) (h : ∀ k v, m.get? k = some v → (f v).encodable = true) :
    (mapJson f m).encodable = true := by
  unfold mapJson
  rw [JVal.encodable, encodableMembers_iff]
  intro p hp
  obtain ⟨k, _, hk⟩ := List.mem_filterMap.1 hp
  obtain ⟨v, hv, rfl⟩ := Option.map_eq_some_iff.1 hk
  exact h k v hv

theorem timer_encodable {t : TimerAgg} (h : t.nanosSumSquares.isFinite = true) : (JVal.obj t.fields).encodable = true := by
  simp [TimerAgg.fields, JVal.encodable, JVal.encodableMembers, h]


theorem mapsFields_encodable {a : AggMaps} (h : MapsFinite a) : ∀ p ∈ a.fields, p.2.encodable = true := by
  intro p hp
  simp only [AggMaps.fields, List.mem_cons, List.not_mem_nil, or_false] at hp
  rcases hp with rfl | rfl | rfl | rfl
  · exact mapJson_encodable _ _ (fun k v hkv => timer_encodable (h.1 k v hkv))
  · exact mapJson_encodable _ _ (fun k v hkv => h.2 k v hkv)
  · exact mapJson_encodable _ _ (fun k v hkv => rfl)
  · exact mapJson_encodable _ _ (fun k v hkv => rfl)

theorem job_encodable {j : JobAgg} (h : MapsFinite j.maps) (ht : j.timer.nanosSumSquares.isFinite = true) : j.toJson.encodable = true := by
  unfold JobAgg.toJson
  rw [JVal.encodable, encodableMembers_iff]
  intro p hp
  rcases List.mem_append.1 hp with hp | hp
  · rcases List.mem_append.1 hp with hp | hp
    · exact mapsFields_encodable h p hp
    · have := timer_encodable ht
      rw [JVal.encodable, encodableMembers_iff] at this
      exact this p hp
  · simp only [List.mem_cons, List.not_mem_nil, or_false] at hp
    rcases hp with rfl | rfl | rfl | rfl | rfl <;> rfl

theorem agg_encodable {a : IntAgg} (h : AggFinite a) (s : Str) : (a.toJson s).encodable = true := by
  unfold IntAgg.toJson
  rw [JVal.encodable, encodableMembers_iff]
  intro p hp
  rcases List.mem_append.1 hp with hp | hp
  · simp only [List.mem_cons, List.not_mem_nil, or_false] at hp
    rcases hp with rfl | rfl | rfl
    · rfl
    · rfl
    · exact mapJson_encodable _ _ (fun k v hkv => job_encodable (h.2 k v hkv).1 (h.2 k v hkv).2)
  · exact mapsFields_encodable h.1 p hp

end Unmarshal
