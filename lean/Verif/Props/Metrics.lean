import Verif.Lemmas.Metrics
import Verif.Lemmas.Encode
/-!
# The /health endpoint (C39, C40) and its reader (C67)
`serveHTTP path identifier intervalDuration zone metrics` is the endpoint of a process; `zone` gives the UTC offset of a location.
-/
open Spec Unmarshal

/-! ## C39 -/

/-- C39, other paths: 404 and a JSON document naming the error. -/
theorem C39_other_path (path identifier : Str) (d : Int) (zone : Nat → Int → Int) (metrics : List IntAgg) (h : path ≠ bs "/health") :
    (serveHTTP path identifier d zone metrics).code = 404 ∧
    readJson (serveHTTP path identifier d zone metrics).body = some (.obj [(bs "error", .str (bs "not_found"))]) := by
  unfold serveHTTP
  rw [if_neg h]
  have he : (JVal.obj [(bs "error", .str (bs "not_found"))]).encodable = true := by decide +kernel
  have hL : (⟨fun _ => [], [58, 32]⟩ : JVal.Layout).Ok := ⟨by intro d; simp, [32], rfl, by decide⟩
  have hb : renderNotFound.body = (JVal.obj [(bs "error", .str (bs "not_found"))]).enc ⟨fun _ => [], [58, 32]⟩ 0 := by decide +kernel
  refine ⟨rfl, ?_⟩
  rw [hb, JVal.readJson_enc hL _ he]
  have f1 : fixUtf8 (bs "error") = bs "error" := by decide +kernel
  have f2 : fixUtf8 (bs "not_found") = bs "not_found" := by decide +kernel
  simp [JVal.view, JVal.viewMembers, f1, f2]

/-- C39, /health: status 200, the content type of JSON, and a body that shows exactly the process, its interval and its metrics.
Partial: names (of jobs, events, timers, gauges and the process) must not contain a percent sign, see `C39_false`. -/
theorem C39_body_partial (identifier : Str) (d : Int) (zone : Nat → Int → Int) (metrics : List IntAgg) (hi : IsUtf8 identifier) (hz : ZonesOk zone)
    (hok : ∀ a ∈ metrics, AggOk a ∧ FourDigits a.start.ns)
    (hp : (37 : UInt8) ∉ identifier) (hn : ∀ a ∈ metrics, ∀ s ∈ aggNames a, (37 : UInt8) ∉ s) :
    let resp := serveHTTP (bs "/health") identifier d zone metrics
    resp.code = 200 ∧ resp.contentType = bs "application/json; charset=utf-8" ∧
    ∃ j, readJson resp.body = some j ∧ ShowsMetrics zone j identifier d metrics := by
  have hy : ∀ a ∈ metrics, FourDigitYear a.start.ns (zone a.start.loc a.start.ns) := fun a ha =>
    fourDigits_year (hok a ha).2 ⟨(hz _ _).1, (hz _ _).2.1⟩
  obtain ⟨h1, h2⟩ := serve_clean zone identifier d metrics (fun a ha => ⟨AggOk.finite (hok a ha).1, hy a ha⟩) hp hn
  refine ⟨by rw [h1], by rw [h1]; rfl, _, h2, ?_⟩
  exact showsMetrics_document zone d hi (fun a ha => ⟨(hok a ha).1, hy a ha⟩) hz

/-- the JSON of metrics with the event name "50%" is damaged by the format directive it contains: the body cannot be read as JSON. -/
theorem C39_false : ∃ metrics : List IntAgg, (∀ a ∈ metrics, AggOk a ∧ FourDigits a.start.ns) ∧
    (serveHTTP (bs "/health") (bs "h.1") 60 (fun _ _ => 0) metrics).code = 200 ∧
    readJson (serveHTTP (bs "/health") (bs "h.1") 60 (fun _ _ => 0) metrics).body = none := by
  refine ⟨[⟨⟨0, 0⟩, 1, [], { AggMaps.init with events := [(bs "50%", 1)] }⟩], ?_, by decide +kernel, by decide +kernel⟩
  intro a ha
  simp only [List.mem_singleton] at ha
  subst ha
  have hu : IsUtf8 (bs "50%") := by rw [← validUtf8_iff]; decide +kernel
  refine ⟨⟨by unfold InI64; norm_num, ⟨.nil, by simp⟩, ⟨⟨.nil, by simp [AggMaps.init]⟩, ⟨.nil, by simp [AggMaps.init]⟩, ⟨?_, ?_⟩, ⟨.nil, by simp [AggMaps.init]⟩⟩⟩,
    by unfold FourDigits; norm_num⟩
  · unfold GoMap.Wf; decide +kernel
  · intro k v hk
    rw [GoMap.get?_cons] at hk
    split at hk
    · next e => cases hk; rw [← e]; exact ⟨hu, by unfold InI64; norm_num⟩
    · simp at hk

/-! ## C40 -/

/-- C40, when exactly /health answers 200 (and 500 otherwise): if no gauge and no sum of squares is NaN or infinite, and the start times have years of four digits. -/
theorem C40_iff (identifier : Str) (d : Int) (zone : Nat → Int → Int) (metrics : List IntAgg) :
    ((∀ a ∈ metrics, AggFinite a ∧ FourDigitYear a.start.ns (zone a.start.loc a.start.ns)) ↔ (serveHTTP (bs "/health") identifier d zone metrics).code = 200) ∧
    ((serveHTTP (bs "/health") identifier d zone metrics).code ≠ 200 → (serveHTTP (bs "/health") identifier d zone metrics).code = 500) := by
  by_cases h : ∀ a ∈ metrics, AggFinite a ∧ FourDigitYear a.start.ns (zone a.start.loc a.start.ns)
  · have := serve_ok zone identifier d metrics h
    rw [this]
    exact ⟨⟨fun _ => rfl, fun _ => h⟩, fun hc => absurd rfl hc⟩
  · have e : (serveHTTP (bs "/health") identifier d zone metrics).code = 500 := by
      simp only [not_forall] at h
      obtain ⟨a, ha, hn⟩ := h
      obtain ⟨e, he⟩ := encodeAggs_error ha hn
      unfold serveHTTP
      rw [if_pos rfl, he]
      rfl
    refine ⟨⟨fun h' => absurd h' h, fun h' => by rw [e] at h'; simp at h'⟩, fun _ => e⟩

/-- C40: after any history of emissions /health answers 200.  Partial: gauges must be finite (see `C40_false`) and the clock within the years
1 to 9999.  Sums of squares never get infinite, however many durations are added up. -/
theorem C40_partial (d r : Int) (hd : 0 < d) (hr : d ≤ r) (h : List (Time × AggOp)) (now : Time) (identifier : Str) (zone : Nat → Int → Int)
    (hz : ZonesOk zone) (hf : ∀ t e, (t, AggOp.emit e) ∈ h → EmitFits e) (ht : ∀ p ∈ h ++ [(now, .read)], FourDigits p.1.ns) :
    ∃ ms, getMetrics d r h now = some ms ∧ (serveHTTP (bs "/health") identifier d zone ms).code = 200 := by
  obtain ⟨ms, h1, h2⟩ := metrics_inv (N := fun _ => True) hd hr h now (fun t e he => ⟨hf t e he, fun _ _ => trivial⟩) ht
  refine ⟨ms, h1, ?_⟩
  rw [serve_ok zone identifier d ms (fun a ha => ⟨(h2 a ha).1.finite, fourDigits_year (h2 a ha).2 ⟨(hz _ _).1, (hz _ _).2.1⟩⟩)]

/-- a case that meets the hypotheses, with an extreme duration. -/
example : let h : List (Time × AggOp) := [(⟨7, 1⟩, .emit (.timing (bs "j") (bs "t") (-2 ^ 63))), (⟨8, 1⟩, .tick), (⟨9, 1⟩, .emit (.gauge (bs "j") (bs "g") (.fin 2)))]
    (∀ t e, (t, AggOp.emit e) ∈ h → EmitFits e) ∧ (∀ p ∈ h ++ [(⟨12, 1⟩, .read)], FourDigits p.1.ns) ∧ ZonesOk (fun _ _ => 3600) ∧
    (getMetrics 10 20 h ⟨12, 1⟩).map (fun ms => (serveHTTP (bs "/health") (bs "h") 10 (fun _ _ => 3600) ms).code) = some 200 := by
  refine ⟨?_, by unfold FourDigits; decide +kernel, by intro _ _; norm_num, by decide +kernel⟩
  intro t e he
  simp only [List.mem_cons, Prod.mk.injEq, List.not_mem_nil, or_false] at he
  rcases he with ⟨_, h⟩ | ⟨_, h⟩ | ⟨_, h⟩
  · cases h; unfold EmitFits InI64; norm_num
  · cases h
  · cases h; unfold EmitFits Finite64 F64.Valid; decide +kernel

/-- one NaN gauge (here from one emission) makes /health answer 500, with no metrics at all. -/
theorem C40_false : ∃ (h : List (Time × AggOp)) (ms : List IntAgg), getMetrics 10 20 h ⟨12, 1⟩ = some ms ∧
    (serveHTTP (bs "/health") (bs "h") 10 (fun _ _ => 0) ms).code = 500 ∧
    (serveHTTP (bs "/health") (bs "h") 10 (fun _ _ => 0) ms).body = bs "{\"error\": \"json: unsupported value: NaN\"}" := by
  have key : (getMetrics 10 20 [(⟨7, 1⟩, .emit (.event (bs "j") (bs "e"))), (⟨9, 1⟩, .emit (.gauge (bs "j") (bs "g") .nan))] ⟨12, 1⟩).map
      (fun ms => serveHTTP (bs "/health") (bs "h") 10 (fun _ _ => 0) ms) = some ⟨500, jsonType, bs "{\"error\": \"json: unsupported value: NaN\"}"⟩ := by
    decide +kernel
  obtain ⟨ms, h1, h2⟩ := Option.map_eq_some_iff.1 key
  exact ⟨_, ms, h1, by rw [h2], by rw [h2]⟩

/-! ## C67 -/

/-- C67: healthd (in any time zone `lo`) decodes from the body exactly the process, its interval and its metrics; start times
get the `*Location` of their UTC offset. -/
theorem C67_decode_partial (identifier : Str) (d : Int) (zone : Nat → Int → Int) (metrics : List IntAgg) (hi : IsUtf8 identifier) (hd : InI64 d)
    (hz : ZonesOk zone) (hok : ∀ a ∈ metrics, AggOk a ∧ FourDigits a.start.ns)
    (hp : (37 : UInt8) ∉ identifier) (hn : ∀ a ∈ metrics, ∀ s ∈ aggNames a, (37 : UInt8) ∉ s) (lo : Int → Int) (fresh : Nat) :
    ∃ rs, unmarshal lo fresh (serveHTTP (bs "/health") identifier d zone metrics).body = some ⟨identifier, d, rs⟩ ∧
      List.Forall₂ (fun r a => ∃ b, r = some ⟨b, false⟩ ∧ AggAgrees a b ∧ InZone lo (zone a.start.loc a.start.ns) b.start) rs metrics := by
  have hy : ∀ a ∈ metrics, FourDigitYear a.start.ns (zone a.start.loc a.start.ns) := fun a ha =>
    fourDigits_year (hok a ha).2 ⟨(hz _ _).1, (hz _ _).2.1⟩
  obtain ⟨h2, _⟩ := serve_clean zone identifier d metrics (fun a ha => ⟨AggOk.finite (hok a ha).1, hy a ha⟩) hp hn
  obtain ⟨rs, h3, h4⟩ := unmarshal_document zone hi hd (fun a ha => ⟨(hok a ha).1, hy a ha⟩) hz lo fresh
  refine ⟨rs, ?_, h4⟩
  unfold unmarshal
  rw [h2, JVal.parse_enc (JVal.indented_ok _ (by decide)) _ (document_encodable zone identifier d metrics (fun a ha => AggOk.finite (hok a ha).1)) (document_depth ..), Option.bind_some, h3]

/-- C67 from the emissions: whatever a process emitted (finite gauges, UTF-8 names without percent sign), healthd decodes exactly the metrics of the
process. -/
theorem C67_emitted_partial (d r : Int) (hd : 0 < d) (hr : d ≤ r) (hd' : InI64 d) (h : List (Time × AggOp)) (now : Time) (identifier : Str)
    (zone : Nat → Int → Int) (hz : ZonesOk zone) (hi : IsUtf8 identifier) (hp : (37 : UInt8) ∉ identifier)
    (hf : ∀ t e, (t, AggOp.emit e) ∈ h → EmitFits e ∧ ∀ s ∈ emitNames e, IsUtf8 s ∧ (37 : UInt8) ∉ s)
    (ht : ∀ p ∈ h ++ [(now, .read)], FourDigits p.1.ns) (lo : Int → Int) (fresh : Nat) :
    ∃ ms rs, getMetrics d r h now = some ms ∧
      unmarshal lo fresh (serveHTTP (bs "/health") identifier d zone ms).body = some ⟨identifier, d, rs⟩ ∧
      List.Forall₂ (fun r a => ∃ b, r = some ⟨b, false⟩ ∧ AggAgrees a b ∧ InZone lo (zone a.start.loc a.start.ns) b.start) rs ms := by
  obtain ⟨ms, h1, h2⟩ := metrics_inv (N := fun s => IsUtf8 s ∧ (37 : UInt8) ∉ s) hd hr h now hf ht
  obtain ⟨rs, h3, h4⟩ := C67_decode_partial identifier d zone ms hi hd' hz (fun a ha => ⟨(h2 a ha).1.ok (fun _ hs => hs.1), (h2 a ha).2⟩) hp
    (fun a ha s hs => ((h2 a ha).1.names s hs).2) lo fresh
  exact ⟨ms, rs, h1, h3, h4⟩

/-- a case that meets the hypotheses. -/
example : let h : List (Time × AggOp) := [(⟨7, 1⟩, .emit (.event (bs "jöb") (bs "e"))), (⟨9, 1⟩, .emit (.complete (bs "j") Status.error 5))]
    (∀ t e, (t, AggOp.emit e) ∈ h → EmitFits e ∧ ∀ s ∈ emitNames e, IsUtf8 s ∧ (37 : UInt8) ∉ s) ∧
    (∀ p ∈ h ++ [(⟨12, 1⟩, .read)], FourDigits p.1.ns) := by
  refine ⟨?_, by unfold FourDigits; decide +kernel⟩
  intro t e he
  simp only [List.mem_cons, Prod.mk.injEq, List.not_mem_nil, or_false] at he
  simp only [← validUtf8_iff]
  rcases he with ⟨_, h⟩ | ⟨_, h⟩
  · cases h; exact ⟨trivial, by decide +kernel⟩
  · cases h; exact ⟨by unfold EmitFits InI64; norm_num, by decide +kernel⟩
