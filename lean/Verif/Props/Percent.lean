import Verif.Lemmas.Percent
import Verif.Props.Metrics
/-!
# Exactly which metrics documents survive `Fprintf` (C39)
-/
open Spec

theorem strs_mapJson_key {V : Type} (f : V → JVal) (m : GoMap Str V) {k : Str} (h : k ∈ m.keys) : k ∈ (mapJson f m).strs := by
  have : ∃ v, m.get? k = some v := by
    cases e : m.get? k with
    | none => exact absurd h ((GoMap.get?_eq_none_iff _ _).1 e)
    | some v => exact ⟨v, rfl⟩
  obtain ⟨v, hv⟩ := this
  unfold mapJson
  rw [JVal.strs, JVal.strsMembers_eq]
  exact List.mem_flatMap.2 ⟨(k, f v), List.mem_filterMap.2 ⟨k, (sortStrs_perm m.keys).mem_iff.2 h, by simp [hv]⟩, by simp⟩

theorem strs_mapJson_value {V : Type} (f : V → JVal) (m : GoMap Str V) {k : Str} {v : V} (h : m.get? k = some v) {s : Str} (hs : s ∈ (f v).strs) :
    s ∈ (mapJson f m).strs := by
  unfold mapJson
  rw [JVal.strs, JVal.strsMembers_eq]
  exact List.mem_flatMap.2 ⟨(k, f v), List.mem_filterMap.2 ⟨k, (sortStrs_perm m.keys).mem_iff.2 (GoMap.mem_keys_of_get? h), by simp [h]⟩, by simp [hs]⟩

theorem mapNames_strs (a : AggMaps) {s : Str} (h : s ∈ mapNames a) : s ∈ JVal.strsMembers a.fields := by
  simp only [AggMaps.fields, JVal.strsMembers, List.mem_cons, List.mem_append, List.append_nil]
  simp only [mapNames, List.mem_append] at h
  rcases h with ((h | h) | h) | h
  all_goals have := fun (V : Type) (f : V → JVal) (m : GoMap Str V) (hk : s ∈ m.keys) => strs_mapJson_key f m hk
  all_goals simp [this _ _ _ h]

theorem aggNames_strs {a : IntAgg} (hw : a.jobs.Wf) (start : Str) {s : Str} (h : s ∈ aggNames a) : s ∈ (a.toJson start).strs := by
  unfold IntAgg.toJson
  rw [JVal.strs, strsMembers_append]
  simp only [aggNames, List.mem_append, List.mem_flatMap] at h
  rcases h with (h | ⟨⟨k, j⟩, hj, h⟩) | h
  · refine List.mem_append.2 (.inl ?_)
    simp only [JVal.strsMembers, JVal.strs, List.append_nil, List.cons_append, List.nil_append, List.mem_cons]
    simp [strs_mapJson_key JobAgg.toJson a.jobs h]
  · refine List.mem_append.2 (.inl ?_)
    have : s ∈ (mapJson JobAgg.toJson a.jobs).strs := by
      refine strs_mapJson_value _ _ (GoMap.get?_of_mem hw hj) ?_
      unfold JobAgg.toJson
      rw [JVal.strs, strsMembers_append, strsMembers_append]
      simp [mapNames_strs _ h]
    simp only [JVal.strsMembers, JVal.strs, List.append_nil, List.cons_append, List.nil_append, List.mem_cons]
    simp [this]
  · exact List.mem_append.2 (.inr (mapNames_strs _ h))

/-- C39, exactly when the body of /health is the JSON text of the metrics: if no name (of the process, a job, an event, a timer or a gauge) contains a
percent sign.  Any percent sign damages the text. -/
theorem C39_percent_iff (identifier : Str) (d : Int) (zone : Nat → Int → Int) (metrics : List IntAgg) (hz : ZonesOk zone)
    (hok : ∀ a ∈ metrics, AggOk a ∧ FourDigits a.start.ns) :
    (serveHTTP (bs "/health") identifier d zone metrics).body = (document zone identifier d metrics).enc (JVal.indented [9]) 0 ↔
    (37 : UInt8) ∉ identifier ∧ ∀ a ∈ metrics, ∀ s ∈ aggNames a, (37 : UInt8) ∉ s := by
  have hy : ∀ a ∈ metrics, FourDigitYear a.start.ns (zone a.start.loc a.start.ns) := fun a ha =>
    fourDigits_year (hok a ha).2 ⟨(hz _ _).1, (hz _ _).2.1⟩
  have hf : ∀ a ∈ metrics, AggFinite a ∧ FourDigitYear a.start.ns (zone a.start.loc a.start.ns) := fun a ha => ⟨AggOk.finite (hok a ha).1, hy a ha⟩
  refine ⟨fun h => ?_, fun h => by rw [(serve_clean zone identifier d metrics hf h.1 h.2).1]⟩
  rw [serve_ok zone identifier d metrics hf] at h
  have h' := (JVal.sprintf_enc_iff JVal.indented_no37 _ (document_encodable zone identifier d metrics (fun a ha => (hf a ha).1)) 0).1 h
  have hd : (document zone identifier d metrics).strs = [bs "instance_id", identifier, bs "interval_duration", bs "aggregations"] ++
      (metrics.map (fun a => a.toJson (rfc3339 a.start.ns (zone a.start.loc a.start.ns)))).flatMap JVal.strs := by
    unfold document responseJson
    simp [JVal.strs, JVal.strsMembers, JVal.strsElems_eq]
  rw [hd] at h'
  refine ⟨h' identifier (by simp), fun a ha s hs => h' s ?_⟩
  exact List.mem_append.2 (.inr (List.mem_flatMap.2 ⟨_, List.mem_map.2 ⟨a, ha, rfl⟩, aggNames_strs (hok a ha).1.jobs.1 _ hs⟩))

/-- a case on each side: "50%" (also "100%%") damages the body, "50" does not. -/
example : let m (n : Str) : List IntAgg := [⟨⟨0, 0⟩, 1, [], { AggMaps.init with events := [(n, 1)] }⟩]
    let same (n : Str) := decide ((serveHTTP (bs "/health") (bs "h.1") 60 (fun _ _ => 0) (m n)).body =
      (document (fun _ _ => 0) (bs "h.1") 60 (m n)).enc (JVal.indented [9]) 0)
    (same (bs "50%"), same (bs "100%%"), same (bs "50")) = (false, false, true) := by decide +kernel
