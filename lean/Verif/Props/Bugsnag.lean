import Verif.Spec.Bugsnag
import Verif.Lemmas.Metrics
import Verif.Props.Writer
/-!
# C60, C61, C70: Bugsnag notifications, function names, traces
-/
open Spec Bugsnag

theorem bug_names : fixUtf8 (bs "file") = bs "file" ∧ fixUtf8 (bs "lineNumber") = bs "lineNumber" ∧ fixUtf8 (bs "method") = bs "method" ∧
    fixUtf8 (bs "inProject") = bs "inProject" ∧ fixUtf8 (bs "errorClass") = bs "errorClass" ∧ fixUtf8 (bs "message") = bs "message" ∧
    fixUtf8 (bs "stacktrace") = bs "stacktrace" ∧ fixUtf8 (bs "payloadVersion") = bs "payloadVersion" ∧ fixUtf8 (bs "exceptions") = bs "exceptions" ∧
    fixUtf8 (bs "context") = bs "context" ∧ fixUtf8 (bs "app") = bs "app" ∧ fixUtf8 (bs "device") = bs "device" ∧
    fixUtf8 (bs "metaData") = bs "metaData" ∧ fixUtf8 (bs "request") = bs "request" ∧ fixUtf8 (bs "kvs") = bs "kvs" ∧
    fixUtf8 (bs "url") = bs "url" ∧ fixUtf8 (bs "parameters") = bs "parameters" ∧ fixUtf8 (bs "releaseStage") = bs "releaseStage" ∧
    fixUtf8 (bs "hostname") = bs "hostname" ∧ fixUtf8 (bs "apiKey") = bs "apiKey" ∧ fixUtf8 (bs "notifier") = bs "notifier" ∧
    fixUtf8 (bs "events") = bs "events" ∧ fixUtf8 (bs "name") = bs "name" ∧ fixUtf8 (bs "version") = bs "version" ∧
    fixUtf8 (bs "health") = bs "health" ∧ fixUtf8 (bs "1.0") = bs "1.0" ∧ fixUtf8 (bs "2") = bs "2" ∧
    fixUtf8 (bs "https://www.github.com/gocraft/health") = bs "https://www.github.com/gocraft/health" := by decide +kernel

/-- a string member, read back. -/
theorem str_view {ms : List (Str × JVal)} (hn : ((ms.map (fun p => (fixUtf8 p.1, p.2.view))).map (·.1)).Nodup) {k s : Str}
    (h : (k, JVal.str s) ∈ ms) (hk : fixUtf8 k = k) (hs : fixUtf8 s = s) : (JVal.obj ms).view.field k = some (.str s) := by
  rw [field_view hn h hk, JVal.view, hs]

def FrameUtf8 (f : Stack.Frame) : Prop := IsUtf8 f.file ∧ IsUtf8 (f.package ++ bs ":" ++ f.name)

theorem showsFrame {f : Stack.Frame} (h : FrameUtf8 f) : ShowsFrame (frameJson f).view f := by
  have F := bug_names
  have hn : ((([(bs "file", JVal.str f.file), (bs "lineNumber", .int f.line), (bs "method", .str (f.package ++ [58] ++ f.name)),
      (bs "inProject", .bool (!f.isSystem))]).map (fun p => (fixUtf8 p.1, p.2.view))).map (·.1)).Nodup := by
    simp only [List.map_cons, List.map_nil, F]
    decide +kernel
  unfold frameJson
  refine ⟨?_, ?_, ?_, ?_⟩
  · exact str_view hn (by simp) (by simp only [F]) (fixUtf8_of_utf8 h.1)
  · exact field_view (v := .int f.line) hn (by simp) (by simp only [F])
  · have := fixUtf8_of_utf8 h.2
    exact str_view hn (s := f.package ++ bs ":" ++ f.name) (by simp [show bs ":" = [58] by decide +kernel]) (by simp only [F]) this
  · exact field_view (v := .bool (!f.isSystem)) hn (by simp) (by simp only [F])

theorem showsFrames {fs : List Stack.Frame} (h : ∀ f ∈ fs, FrameUtf8 f) : ShowsFrames (framesJson fs).view fs := by
  unfold framesJson
  split
  · next e => exact .inl ⟨e, rfl⟩
  · right
    refine ⟨_, by rw [JVal.view, JVal.viewElems_eq], ?_⟩
    rw [List.map_map, List.forall₂_map_left_iff, List.forall₂_same]
    exact fun f hf => showsFrame (h f hf)

theorem framesJson_encodable (fs : List Stack.Frame) : (framesJson fs).encodable = true := by
  unfold framesJson
  split
  · rfl
  · rw [JVal.encodable]
    induction fs with
    | nil => rfl
    | cons f t ih =>
      rw [List.map_cons, JVal.encodableElems]
      have : (frameJson f).encodable = true := by simp [frameJson, JVal.encodable, JVal.encodableMembers]
      rw [this, Bool.true_and]
      by_cases e : t = []
      · subst e; rfl
      · exact ih e

/-- C60: whatever the configuration, job, event, message, frames and key/values (texts in UTF-8), a document is posted, and it carries
the API key, stage and host, the event as error class, the message, the job as context, the frames in order, all key/values, and the
key/values `request` and `formdata` as URL and parameters of the request. -/
theorem C60_payload (c : Config) (job event message : Str) (fs : List Stack.Frame) (kvs : Option (GoMap Str Str)) (answer : Answer)
    (hc : IsUtf8 c.apiKey ∧ IsUtf8 c.releaseStage ∧ IsUtf8 c.hostname) (hj : IsUtf8 job ∧ IsUtf8 event ∧ IsUtf8 message)
    (hf : ∀ f ∈ fs, FrameUtf8 f) (hw : ∀ m, kvs = some m → m.Wf ∧ ∀ p ∈ m, IsUtf8 p.1 ∧ IsUtf8 p.2) :
    ∃ b j, (notify c job event message fs kvs answer).1 = some b ∧ readJson b = some j ∧ Notifies c job event message fs kvs j := by
  have F := bug_names
  have hfr := showsFrames hf
  have hkv := kvsJson_isKvs kvs (fun m hm => (hw m hm).1) (fun m hm => (hw m hm).2)
  have hval : ∀ k, IsUtf8 (((kvs.getD []).get? k).getD []) := by
    intro k
    cases kvs with
    | none => exact ⟨[], by simp, rfl⟩
    | some m =>
      cases hm : m.get? k with
      | none => simp only [Option.getD_some, hm, Option.getD_none]; exact ⟨[], by simp, rfl⟩
      | some v => simp only [Option.getD_some, hm]; exact ((hw m rfl).2 _ (GoMap.mem_of_get? hm)).2
  have hval' : ∀ k, ((kvs.bind (fun m => m.get? k)).getD []) = ((kvs.getD []).get? k).getD [] := by
    intro k; cases kvs <;> simp
  -- the parts
  let except : List (Str × JVal) := [(bs "errorClass", .str event), (bs "message", .str message), (bs "stacktrace", framesJson fs)]
  have hn1 : ((except.map (fun p => (fixUtf8 p.1, p.2.view))).map (·.1)).Nodup := by
    simp only [except, List.map_cons, List.map_nil, F]
    decide +kernel
  let req : List (Str × JVal) := [(bs "url", .str (((kvs.getD []).get? (bs "request")).getD [])), (bs "parameters", .str (((kvs.getD []).get? (bs "formdata")).getD []))]
  have hn2 : ((req.map (fun p => (fixUtf8 p.1, p.2.view))).map (·.1)).Nodup := by
    simp only [req, List.map_cons, List.map_nil, F]
    decide +kernel
  let meta' : List (Str × JVal) := [(bs "request", .obj req), (bs "kvs", JsonWriterSink.kvsJson kvs)]
  have hn3 : ((meta'.map (fun p => (fixUtf8 p.1, p.2.view))).map (·.1)).Nodup := by
    simp only [meta', List.map_cons, List.map_nil, F]
    decide +kernel
  let app : List (Str × JVal) := [(bs "releaseStage", .str c.releaseStage)]
  have hn4 : ((app.map (fun p => (fixUtf8 p.1, p.2.view))).map (·.1)).Nodup := by
    simp only [app, List.map_cons, List.map_nil, F]
    decide +kernel
  let device : List (Str × JVal) := [(bs "hostname", .str c.hostname)]
  have hn5 : ((device.map (fun p => (fixUtf8 p.1, p.2.view))).map (·.1)).Nodup := by
    simp only [device, List.map_cons, List.map_nil, F]
    decide +kernel
  let evt : List (Str × JVal) := [(bs "payloadVersion", .str (bs "2")), (bs "exceptions", .arr [.obj except]), (bs "context", .str job),
    (bs "app", .obj app), (bs "device", .obj device), (bs "metaData", .obj meta')]
  have hn6 : ((evt.map (fun p => (fixUtf8 p.1, p.2.view))).map (·.1)).Nodup := by
    simp only [evt, List.map_cons, List.map_nil, F]
    decide +kernel
  let notifier : List (Str × JVal) := [(bs "name", .str (bs "health")), (bs "version", .str (bs "1.0")), (bs "url", .str (bs "https://www.github.com/gocraft/health"))]
  have hn7 : ((notifier.map (fun p => (fixUtf8 p.1, p.2.view))).map (·.1)).Nodup := by
    simp only [notifier, List.map_cons, List.map_nil, F]
    decide +kernel
  let doc : List (Str × JVal) := [(bs "apiKey", .str c.apiKey), (bs "notifier", .obj notifier), (bs "events", .arr [.obj evt])]
  have hn8 : ((doc.map (fun p => (fixUtf8 p.1, p.2.view))).map (·.1)).Nodup := by
    simp only [doc, List.map_cons, List.map_nil, F]
    decide +kernel
  have hdoc : newPayload c job event message fs kvs = .obj doc := rfl
  have henc : (JVal.obj doc).encodable = true := by
    simp only [doc, evt, except, app, device, meta', req, notifier, JVal.encodable, JVal.encodableMembers, JVal.encodableElems,
      framesJson_encodable, kvsJson_encodable, Bool.and_self]
  refine ⟨(JVal.obj doc).enc (JVal.indented [9]) 0, (JVal.obj doc).view, ?_, JVal.readJson_enc (JVal.indented_ok [9] (by decide)) _ henc, ?_⟩
  · unfold notify
    have : (newPayload c job event message fs kvs).marshalIndent [9] = some ((JVal.obj doc).enc (JVal.indented [9]) 0) := by
      rw [hdoc]; unfold JVal.marshalIndent; rw [if_pos henc]
    rw [this]
    cases answer <;> rfl
  · refine ⟨?_, ⟨(JVal.obj evt).view, (JVal.obj except).view, (JVal.obj app).view, (JVal.obj device).view, (JVal.obj meta').view, ?_, ?_, ?_, ?_, ?_, ?_,
      ⟨_, ?_, hfr⟩, ?_, ?_, ?_, ?_, ?_, ⟨_, ?_, hkv⟩, (JVal.obj req).view, ?_, ?_, ?_⟩, (JVal.obj notifier).view, ?_, ?_, ?_, ?_⟩
    · exact str_view hn8 (by simp [doc]) (by simp only [F]) (fixUtf8_of_utf8 hc.1)
    · have := field_view (k := bs "events") (v := .arr [.obj evt]) hn8 (by simp [doc]) (by simp only [F])
      rw [this, JVal.view, JVal.viewElems_eq]; rfl
    · exact str_view hn6 (by simp [evt]) (by simp only [F]) (fixUtf8_of_utf8 hj.1)
    · exact str_view hn6 (by simp [evt]) (by simp only [F]) (by simp only [F])
    · have := field_view (k := bs "exceptions") (v := .arr [.obj except]) hn6 (by simp [evt]) (by simp only [F])
      rw [this, JVal.view, JVal.viewElems_eq]; rfl
    · exact str_view hn1 (by simp [except]) (by simp only [F]) (fixUtf8_of_utf8 hj.2.1)
    · exact str_view hn1 (by simp [except]) (by simp only [F]) (fixUtf8_of_utf8 hj.2.2)
    · exact field_view (v := framesJson fs) hn1 (by simp [except]) (by simp only [F])
    · exact field_view (v := .obj app) hn6 (by simp [evt]) (by simp only [F])
    · exact str_view hn4 (by simp [app]) (by simp only [F]) (fixUtf8_of_utf8 hc.2.1)
    · exact field_view (v := .obj device) hn6 (by simp [evt]) (by simp only [F])
    · exact str_view hn5 (by simp [device]) (by simp only [F]) (fixUtf8_of_utf8 hc.2.2)
    · exact field_view (v := .obj meta') hn6 (by simp [evt]) (by simp only [F])
    · exact field_view (v := JsonWriterSink.kvsJson kvs) hn3 (by simp [meta']) (by simp only [F])
    · exact field_view (v := .obj req) hn3 (by simp [meta']) (by simp only [F])
    · rw [hval']
      exact str_view hn2 (by simp [req]) (by simp only [F]) (fixUtf8_of_utf8 (hval _))
    · rw [hval']
      exact str_view hn2 (by simp [req]) (by simp only [F]) (fixUtf8_of_utf8 (hval _))
    · exact field_view (v := .obj notifier) hn8 (by simp [doc]) (by simp only [F])
    · exact str_view hn7 (by simp [notifier]) (by simp only [F]) (by simp only [F])
    · exact str_view hn7 (by simp [notifier]) (by simp only [F]) (by simp only [F])
    · exact str_view hn7 (by simp [notifier]) (by simp only [F]) (by simp only [F])

/-- C60: `Notify` reports success exactly when the server answered `OK`. -/
theorem C60_ok (c : Config) (job event message : Str) (fs : List Stack.Frame) (kvs : Option (GoMap Str Str)) (answer : Answer) :
    (notify c job event message fs kvs answer).2 = true ↔ answer = .body (bs "OK") := by
  have henc : (newPayload c job event message fs kvs).encodable = true := by
    simp only [newPayload, JVal.encodable, JVal.encodableMembers, JVal.encodableElems, framesJson_encodable, kvsJson_encodable, Bool.and_self]
  have : (newPayload c job event message fs kvs).marshalIndent [9] = some ((newPayload c job event message fs kvs).enc (JVal.indented [9]) 0) := by
    unfold JVal.marshalIndent; rw [if_pos henc]
  unfold notify
  rw [this]
  cases answer with
  | none => simp
  | body b => simp

def bugCfg : Config := ⟨bs "c9d6", [], bs "production", bs "1.2", bs "web-1"⟩
def bugFrame : Stack.Frame := ⟨bs "/go/src/app/main.go", 12, bs "(*T).Do", bs "app", false, 77⟩
example : (framesJson [bugFrame]).enc (JVal.indented [9]) 0 =
    bs "[\n\t{\n\t\t\"file\": \"/go/src/app/main.go\",\n\t\t\"lineNumber\": 12,\n\t\t\"method\": \"app:(*T).Do\",\n\t\t\"inProject\": true\n\t}\n]" := by
  decide +kernel
example : FrameUtf8 bugFrame ∧ IsUtf8 bugCfg.apiKey := by
  have h : validUtf8 bugFrame.file = true ∧ validUtf8 (bugFrame.package ++ bs ":" ++ bugFrame.name) = true ∧ validUtf8 bugCfg.apiKey = true := by decide +kernel
  exact ⟨⟨(validUtf8_iff _).1 h.1, (validUtf8_iff _).1 h.2.1⟩, (validUtf8_iff _).1 h.2.2⟩
example : bugCfg.withDefault.endpoint = bs "https://notify.bugsnag.com/" := by decide +kernel

/-! ## C61: names -/

namespace Stack

theorem lastIndex_spec (c : UInt8) (s : Str) :
    (lastIndex c s = none ∧ c ∉ s) ∨ ∃ i a b, lastIndex c s = some i ∧ s = a ++ c :: b ∧ a.length = i ∧ c ∉ b := by
  induction s with
  | nil => exact .inl ⟨rfl, by simp⟩
  | cons x t ih =>
    rw [lastIndex]
    rcases ih with ⟨h1, h2⟩ | ⟨i, a, b, h1, h2, h3, h4⟩
    · rw [h1]
      by_cases e : x = c
      · exact .inr ⟨0, [], t, by simp [e], by simp [e], rfl, h2⟩
      · exact .inl ⟨by simp [e], by simp [h2, Ne.symm e]⟩
    · rw [h1]
      exact .inr ⟨i + 1, x :: a, b, rfl, by rw [h2]; rfl, by simp [h3], h4⟩

theorem index_spec (c : UInt8) (s : Str) :
    (index c s = none ∧ c ∉ s) ∨ ∃ i a b, index c s = some i ∧ s = a ++ c :: b ∧ a.length = i ∧ c ∉ a := by
  induction s with
  | nil => exact .inl ⟨rfl, by simp⟩
  | cons x t ih =>
    rw [index]
    by_cases e : x = c
    · exact .inr ⟨0, [], t, by simp [e], by simp [e], rfl, by simp⟩
    · rw [if_neg e]
      rcases ih with ⟨h1, h2⟩ | ⟨i, a, b, h1, h2, h3, h4⟩
      · exact .inl ⟨by rw [h1]; rfl, by simp [h2, Ne.symm e]⟩
      · exact .inr ⟨i + 1, x :: a, b, by rw [h1]; rfl, by rw [h2]; rfl, by simp [h3], by simp [h4, Ne.symm e]⟩

end Stack

/-- C61: package and name are parts of the full name, and nothing but the separating dot is lost. -/
theorem C61_parts (full : Str) : NameParts full (Stack.packageAndName full).1 (Stack.packageAndName full).2 := by
  -- after the slash
  have key : ∀ (dir rest : Str), (dir = [] ∨ dir.getLast? = some 47) → (47 : UInt8) ∉ rest →
      NameParts (dir ++ rest) (match Stack.index 46 rest with | some i => (dir ++ rest.take i, rest.drop (i + 1)) | none => (dir, rest)).1
        (match Stack.index 46 rest with | some i => (dir ++ rest.take i, rest.drop (i + 1)) | none => (dir, rest)).2 := by
    intro dir rest hd hr
    rcases Stack.index_spec 46 rest with ⟨h1, h2⟩ | ⟨i, a, b, h1, h2, h3, h4⟩
    · rw [h1]
      exact ⟨hr, dir, [], by simp, hd, by simp, by simp, .inr ⟨rfl, h2, rfl⟩⟩
    · rw [h1]
      subst h3
      subst h2
      simp only
      have e1 : (a ++ 46 :: b).take a.length = a := by simp
      have e2 : (a ++ 46 :: b).drop (a.length + 1) = b := by simp
      rw [e1, e2]
      exact ⟨fun h => hr (by simp [h]), dir, a, rfl, hd, fun h => hr (by simp [h]), h4, .inl (by simp)⟩
  unfold Stack.packageAndName
  rcases Stack.lastIndex_spec 47 full with ⟨h1, h2⟩ | ⟨i, a, b, h1, h2, h3, h4⟩
  · simp only
    rw [h1]
    exact key [] full (.inl rfl) h2
  · simp only
    rw [h1]
    subst h3
    have e1 : full.take a.length = a := by rw [h2]; simp
    have e2 : full.drop (a.length + 1) = b := by rw [h2]; simp
    simp only [e1, e2]
    have := key ([] ++ (a ++ [47])) b (.inr (by simp)) h4
    rw [show [] ++ (a ++ [47]) ++ b = full by rw [h2]; simp] at this
    exact this

theorem split_unique {c : UInt8} {a b a' b' : Str} (h : a ++ c :: b = a' ++ c :: b') (ha : c ∉ a) (ha' : c ∉ a') : a = a' ∧ b = b' := by
  induction a generalizing a' with
  | nil =>
    cases a' with
    | nil => simpa using h
    | cons x t =>
      simp only [List.nil_append, List.cons_append, List.cons.injEq] at h
      exact absurd (by simp [h.1]) ha'
  | cons x t ih =>
    cases a' with
    | nil =>
      simp only [List.nil_append, List.cons_append, List.cons.injEq] at h
      exact absurd (by simp [h.1]) ha
    | cons y t' =>
      simp only [List.cons_append, List.cons.injEq] at h
      obtain ⟨h1, h2⟩ := ih h.2 (fun hc => ha (by simp [hc])) (fun hc => ha' (by simp [hc]))
      exact ⟨by rw [h.1, h1], h2⟩

/-- cutting after the last slash. -/
theorem dir_unique {d r d' r' : Str} (h : d ++ r = d' ++ r') (hd : d = [] ∨ d.getLast? = some 47) (hd' : d' = [] ∨ d'.getLast? = some 47)
    (hr : (47 : UInt8) ∉ r) (hr' : (47 : UInt8) ∉ r') : d = d' ∧ r = r' := by
  have rev : ∀ {d : Str}, d.getLast? = some 47 → ∃ e, d = e ++ [47] := by
    intro d hd
    obtain ⟨e, he⟩ := List.getLast?_eq_some_iff.1 hd
    exact ⟨e, he⟩
  rcases hd with rfl | hd <;> rcases hd' with rfl | hd'
  · exact ⟨rfl, by simpa using h⟩
  · obtain ⟨e, rfl⟩ := rev hd'
    exact absurd (by rw [List.nil_append] at h; rw [h]; simp) hr
  · obtain ⟨e, rfl⟩ := rev hd
    exact absurd (by rw [List.nil_append] at h; rw [← h]; simp) hr'
  · obtain ⟨e, rfl⟩ := rev hd
    obtain ⟨e', rfl⟩ := rev hd'
    have h2 := congrArg List.reverse h
    simp only [List.reverse_append, List.reverse_cons, List.append_assoc, List.singleton_append] at h2
    obtain ⟨h3, h4⟩ := split_unique h2 (by simpa using hr) (by simpa using hr')
    have h5 : e = e' := by simpa using congrArg List.reverse h4
    have h6 : r = r' := by simpa using congrArg List.reverse h3
    exact ⟨by rw [h5], h6⟩

/-- C61: there is only one way to take a full name apart like that. -/
theorem C61_unique (full pkg name pkg' name' : Str) (h : NameParts full pkg name) (h' : NameParts full pkg' name') : pkg = pkg' ∧ name = name' := by
  obtain ⟨hn, dir, last, rfl, hd, hl, hdot, hf⟩ := h
  obtain ⟨hn', dir', last', rfl, hd', hl', hdot', hf'⟩ := h'
  rcases hf with rfl | ⟨rfl, hnn, rfl⟩ <;> rcases hf' with h2 | ⟨rfl, hnn', h2⟩
  · have h3 : dir ++ (last ++ 46 :: name) = dir' ++ (last' ++ 46 :: name') := by simpa using h2
    obtain ⟨h4, h5⟩ := dir_unique h3 hd hd' (by simp [hl, hn]) (by simp [hl', hn'])
    obtain ⟨h6, h7⟩ := split_unique h5 hdot hdot'
    exact ⟨by rw [h4, h6], h7⟩
  · have h3 : dir ++ (last ++ 46 :: name) = dir' ++ name' := by simpa using h2
    obtain ⟨h4, h5⟩ := dir_unique h3 hd hd' (by simp [hl, hn]) hn'
    exact absurd (by rw [← h5]; simp) hnn'
  · have h3 : dir ++ name = dir' ++ (last' ++ 46 :: name') := by simpa using h2
    obtain ⟨h4, h5⟩ := dir_unique h3 hd hd' hn (by simp [hl', hn'])
    exact absurd (by rw [h5]; simp) hnn
  · obtain ⟨h4, h5⟩ := dir_unique h2 hd hd' hn hn'
    exact ⟨by rw [h4], h5⟩

/-- C61: the package path and the dotless last element are found whenever the full name is of the usual form. -/
theorem C61_usual (dir last name : Str) (hd : dir = [] ∨ dir.getLast? = some 47) (hl : (47 : UInt8) ∉ last ∧ (46 : UInt8) ∉ last)
    (hn : (47 : UInt8) ∉ name) : Stack.packageAndName (dir ++ last ++ [46] ++ name) = (dir ++ last, name) := by
  have h1 := C61_parts (dir ++ last ++ [46] ++ name)
  have h2 : NameParts (dir ++ last ++ [46] ++ name) (dir ++ last) name := ⟨hn, dir, last, rfl, hd, hl.1, hl.2, .inl rfl⟩
  obtain ⟨h3, h4⟩ := C61_unique _ _ _ _ _ h1 h2
  exact Prod.ext h3 h4

example : (bs "github.com/gocraft/").getLast? = some 47 ∧ (47 : UInt8) ∉ bs "health" ∧ (46 : UInt8) ∉ bs "health" ∧
    (47 : UInt8) ∉ bs "(*Job).Run.func1" := by decide +kernel

/-! ## C70: traces -/

/-- C70: the trace stored by `EventErr` with a new error (`stack.NewTrace(2)`, called by `wrapErr`, called by `EventErr`) holds the
program counters of the calls from the caller of `EventErr` outwards, the innermost fifty. -/
theorem C70_trace (callers newTrace wrapErr eventErr : Nat) (outer : List Nat) :
    Stack.newTrace (callers :: newTrace :: wrapErr :: eventErr :: outer) 2 <+: outer ∧
    (Stack.newTrace (callers :: newTrace :: wrapErr :: eventErr :: outer) 2).length = min 50 outer.length := by
  have : Stack.newTrace (callers :: newTrace :: wrapErr :: eventErr :: outer) 2 = outer.take 50 := rfl
  rw [this]
  exact ⟨List.take_prefix _ _, by simp⟩

/-- C70: the text of a trace has one line per frame, in order: file, line number and name (for names and files without line breaks,
cutting at line breaks gives back the frames). -/
theorem C70_text (rt : Stack.Runtime) (trace : List Nat) (h : ∀ f ∈ Stack.frames rt trace, (10 : UInt8) ∉ f.text) :
    (Stack.text rt trace).splitOn 10 = (Stack.frames rt trace).map (·.text) ++ [[]] := by
  have key : ∀ fs : List Stack.Frame, fs.flatMap (fun f => f.text ++ [10]) = [10].intercalate (fs.map (·.text) ++ [[]]) := by
    intro fs
    induction fs with
    | nil => rfl
    | cons f t ih =>
      rw [List.flatMap_cons, ih]
      have hne : t.map (·.text) ++ [[]] ≠ [] := by simp
      obtain ⟨x, xs, hx⟩ := List.exists_cons_of_ne_nil hne
      rw [List.map_cons, List.cons_append, hx]
      simp [List.intercalate, List.intersperse]
  unfold Stack.text
  rw [key]
  apply List.splitOn_intercalate
  · intro l hl
    rcases List.mem_append.1 hl with hl | hl
    · obtain ⟨f, hf, rfl⟩ := List.mem_map.1 hl
      exact h f hf
    · simp only [List.mem_singleton] at hl
      subst hl
      simp
  · simp

/-- a runtime for the example. -/
def exRuntime : Stack.Runtime :=
  ⟨fun pc => if pc = 10 then some (bs "app/web.(*Server).handle") else if pc = 20 then some (bs "net/http.HandlerFunc.ServeHTTP") else none,
   fun pc => if pc = 9 then (bs "/src/app/web/server.go", 42) else (bs "/usr/go/src/net/http/server.go", 2000), bs "/usr/go"⟩
example : Stack.text exRuntime [10, 20] = bs "/src/app/web/server.go:42 (*Server).handle\n/usr/go/src/net/http/server.go:2000 HandlerFunc.ServeHTTP\n" ∧
    (Stack.frames exRuntime [10, 20, 30]).map (·.isSystem) = [false, true, false] ∧ ∀ f ∈ Stack.frames exRuntime [10, 20], (10 : UInt8) ∉ f.text := by
  decide +kernel

/-! ## C71: which frames count as system frames -/

/-- C71: a frame of a known function whose file is below GOROOT is a system frame. -/
theorem C71_below (rt : Stack.Runtime) (pc : Nat) (hpc : pc ≠ 0) (full : Str) (hf : rt.func pc = some full)
    (hb : Below rt.goroot (rt.fileLine (pc - 1)).1) : (Stack.newFrame rt pc).isSystem = true := by
  obtain ⟨rest, hr⟩ := hb
  simp only [Stack.newFrame, if_neg hpc, hf, Stack.isSystemPackage, hr, List.append_assoc]
  exact List.isPrefixOf_iff_prefix.2 (List.prefix_append _ _)

/-- C71, partial: a frame is a system frame exactly if its function is known and its file is below GOROOT, if no file has a name that
merely begins with the text of GOROOT.
Missing: other files, see `C71_false`. -/
theorem C71_system_partial (rt : Stack.Runtime) (pc : Nat)
    (hg : ∀ tail, (rt.fileLine (pc - 1)).1 = rt.goroot ++ tail → tail.head? = some 47) :
    (Stack.newFrame rt pc).isSystem = true ↔
      (pc ≠ 0 ∧ rt.func pc ≠ none ∧ Below rt.goroot (rt.fileLine (pc - 1)).1) := by
  by_cases hpc : pc = 0
  · subst hpc
    simp [Stack.newFrame]
  · cases hf : rt.func pc with
    | none => simp [Stack.newFrame, hpc, hf]
    | some full =>
      refine ⟨fun h => ⟨hpc, by simp, ?_⟩, fun h => C71_below rt pc hpc full hf h.2.2⟩
      simp only [Stack.newFrame, if_neg hpc, hf, Stack.isSystemPackage] at h
      obtain ⟨tail, ht⟩ := List.isPrefixOf_iff_prefix.1 h
      have h1 := hg tail ht.symm
      cases tail with
      | nil => cases h1
      | cons c t =>
        simp only [List.head?_cons, Option.some.injEq] at h1
        subst h1
        exact ⟨t, by rw [← ht]; show _ = rt.goroot ++ [47] ++ t; simp⟩

/-- **C71**, exactly: of a frame with a known function, the code's judgement is right if and only if the file's name does not merely begin with the text of GOROOT (such as
`/usr/gopher/main.go` with GOROOT `/usr/go`). -/
theorem C71_iff (rt : Stack.Runtime) (pc : Nat) (hpc : pc ≠ 0) (hf : rt.func pc ≠ none) :
    ((Stack.newFrame rt pc).isSystem = true ↔ Below rt.goroot (rt.fileLine (pc - 1)).1) ↔
      ¬ ∃ tail, (rt.fileLine (pc - 1)).1 = rt.goroot ++ tail ∧ tail.head? ≠ some 47 := by
  constructor
  · rintro h ⟨tail, h1, h2⟩
    have h3 : (Stack.newFrame rt pc).isSystem = true := by
      cases hfn : rt.func pc with
      | none => exact absurd hfn hf
      | some full =>
        simp only [Stack.newFrame, if_neg hpc, hfn, Stack.isSystemPackage, h1]
        exact List.isPrefixOf_iff_prefix.2 (List.prefix_append _ _)
    obtain ⟨rest, h4⟩ := h.1 h3
    rw [h1, List.append_assoc, List.append_cancel_left_eq] at h4
    exact h2 (by rw [h4]; rfl)
  · intro h
    rw [C71_system_partial rt pc (fun tail ht => by_contra (fun hn => h ⟨tail, ht, hn⟩))]
    exact ⟨fun h => h.2.2, fun h => ⟨hpc, hf, h⟩⟩

example : ∀ tail, bs "/home/me/main.go" = bs "/usr/go" ++ tail → tail.head? = some 47 := by
  intro tail h
  exact absurd h (by rw [show bs "/home/me/main.go" = [47, 104] ++ bs "ome/me/main.go" from by decide +kernel,
    show bs "/usr/go" = [47, 117] ++ bs "sr/go" from by decide +kernel]; simp)

example : ∀ tail, bs "/usr/go/src/fmt/print.go" = bs "/usr/go" ++ tail → tail.head? = some 47 := by
  intro tail h
  have h2 : bs "/usr/go/src/fmt/print.go" = bs "/usr/go" ++ bs "/src/fmt/print.go" := by decide +kernel
  rw [h2, List.append_cancel_left_eq] at h
  rw [← h]
  decide +kernel

/-- C71 is false: with GOROOT /usr/go a frame of the program /usr/gopher/main.go is reported as not being in the project; with an unknown
GOROOT (empty, as in a binary built with -trimpath) every frame is. -/
theorem C71_false : (∃ (rt : Stack.Runtime) (pc : Nat), rt.goroot = bs "/usr/go" ∧ (rt.fileLine (pc - 1)).1 = bs "/usr/gopher/main.go" ∧
      (Stack.newFrame rt pc).isSystem = true ∧ ¬ Below rt.goroot (rt.fileLine (pc - 1)).1) ∧
    ∀ (rt : Stack.Runtime) (pc : Nat), rt.goroot = [] → pc ≠ 0 → rt.func pc ≠ none → (Stack.newFrame rt pc).isSystem = true := by
  refine ⟨⟨⟨fun _ => some (bs "main.main"), fun _ => (bs "/usr/gopher/main.go", 3), bs "/usr/go"⟩, 1, rfl, rfl, by decide +kernel, ?_⟩, ?_⟩
  · rintro ⟨rest, h⟩
    have h1 : bs "/usr/gopher/main.go" = bs "/usr/go" ++ bs "pher/main.go" := by decide +kernel
    have h2 : bs "/usr/go" ++ bs "pher/main.go" = bs "/usr/go" ++ (bs "/" ++ rest) := by rw [← h1]; simpa using h
    rw [List.append_cancel_left_eq] at h2
    have h3 := congrArg List.head? h2
    exact absurd h3 (by
      rw [show (bs "/" ++ rest).head? = some 47 from rfl, show (bs "pher/main.go").head? = some 112 from by decide +kernel]
      decide)
  · intro rt pc hg hpc hf
    cases h : rt.func pc with
    | none => exact absurd h hf
    | some full => simp [Stack.newFrame, hpc, h, Stack.isSystemPackage, hg]
