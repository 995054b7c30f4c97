import Verif.Spec.HttpRequest
import Verif.Spec.Librato
import Verif.Props.Bugsnag
/-!
# C100, C101: the requests of the sinks
-/
namespace ServerAuth

theorem digit_char : ∀ d : Fin 64, digit (Base64.char d) = some d.val ∧ Base64.char d ≠ 61 ∧ 32 ≤ Base64.char d ∧ Base64.char d ≠ 127 := by
  decide +kernel

theorem digit_char' {d : Nat} (h : d < 64) : digit (Base64.char d) = some d := (digit_char ⟨d, h⟩).1
theorem char_ne {d : Nat} (h : d < 64) : Base64.char d ≠ 61 := (digit_char ⟨d, h⟩).2.1

theorem byte_eq {a : UInt8} {n : Nat} (h : n % 256 = a.toNat) : UInt8.ofNat n = a := by
  apply UInt8.toNat_inj.1
  rw [UInt8.toNat_ofNat']
  exact h

theorem decode_encode (s : Str) : decode (Base64.encode s) = some s := by
  induction s using Base64.encode.induct with
  | case1 a b c rest ih =>
    have ha := a.toNat_lt; have hb := b.toNat_lt; have hc := c.toNat_lt
    simp only [Base64.encode, decode]
    rw [digit_char' (by omega), digit_char' (by omega), digit_char' (by omega), digit_char' (by omega), ih]
    simp only [Option.bind_eq_bind, Option.bind_some]
    rw [if_neg (char_ne (by omega)), if_neg (char_ne (by omega))]
    rw [byte_eq (a := a) (by omega), byte_eq (a := b) (by omega), byte_eq (a := c) (by omega)]
  | case2 a b =>
    have ha := a.toNat_lt; have hb := b.toNat_lt
    simp only [Base64.encode, decode]
    rw [digit_char' (by omega), digit_char' (by omega), digit_char' (by omega)]
    simp only [Option.bind_eq_bind, Option.bind_some]
    rw [if_neg (char_ne (by omega)), if_pos trivial, if_pos trivial]
    rw [byte_eq (a := a) (by omega), byte_eq (a := b) (by omega)]
  | case3 a =>
    have ha := a.toNat_lt
    simp only [Base64.encode, decode]
    rw [digit_char' (by omega), digit_char' (by omega)]
    simp only [Option.bind_eq_bind, Option.bind_some]
    rw [if_pos trivial, if_pos (by simp)]
    rw [byte_eq (a := a) (by omega)]
  | case4 => rfl

theorem encode_visible (s : Str) : ∀ c ∈ Base64.encode s, 32 ≤ c ∧ c ≠ 127 := by
  have key : ∀ {d : Nat}, d < 64 → 32 ≤ Base64.char d ∧ Base64.char d ≠ 127 := fun h => (digit_char ⟨_, h⟩).2.2
  have hpad : (32 : UInt8) ≤ 61 ∧ (61 : UInt8) ≠ 127 := by decide
  induction s using Base64.encode.induct with
  | case1 a b c rest ih =>
    intro x hx
    simp only [Base64.encode, List.mem_cons] at hx
    rcases hx with h | h | h | h | h
    · subst h; exact key (by omega)
    · subst h; exact key (by omega)
    · subst h; exact key (by omega)
    · subst h; exact key (by omega)
    · exact ih x h
  | case2 a b =>
    intro x hx
    simp only [Base64.encode, List.mem_cons, List.not_mem_nil, or_false] at hx
    rcases hx with h | h | h | h
    · subst h; exact key (by omega)
    · subst h; exact key (by omega)
    · subst h; exact key (by omega)
    · subst h; exact hpad
  | case3 a =>
    intro x hx
    simp only [Base64.encode, List.mem_cons, List.not_mem_nil, or_false] at hx
    rcases hx with h | h | h | h
    · subst h; exact key (by omega)
    · subst h; exact key (by omega)
    · subst h; exact hpad
    · subst h; exact hpad
  | case4 => intro x hx; cases hx

theorem cut_append {u : Str} (hu : 58 ∉ u) (v : Str) : cut (u ++ 58 :: v) = some (u, v) := by
  induction u with
  | nil => simp [cut]
  | cons c u ih =>
    rw [List.cons_append, cut, if_neg (fun h => hu (by rw [h]; exact List.mem_cons_self)), ih (fun h => hu (List.mem_cons_of_mem _ h))]
    rfl

theorem credentials_request {user key : Str} {x : Librato.Sent} {r : HttpRequest} (hr : Librato.request user key x = some r) :
    credentials r = cut (user ++ 58 :: key) := by
  cases x with
  | posted b =>
    cases hr
    have h1 : (bs "Content-Type" == bs "Authorization") = false := by decide +kernel
    have h2 : (bs "Authorization" == bs "Authorization") = true := by decide +kernel
    have hl : (bs "Basic ").length = 6 := by decide +kernel
    simp only [credentials, List.find?_cons, h1, h2, Option.map_some, Option.bind_eq_bind, Option.bind_some, basicAuth]
    rw [← hl, List.take_left', List.drop_left', if_pos rfl, decode_encode]
    · simp [List.append_assoc]
    · rfl
    · rfl
  | nothing => cases hr
  | failed => cases hr

/-- **C100** (requests of the Librato sink): each flush makes a request exactly if it posts; the request is a POST of the JSON of
the flush to Librato's address, and the server reads the user and the key of the sink out of it — whatever bytes they consist of, if
there is no colon in the user's name (see `C100_colon`). -/
theorem C100_librato_partial (o : Librato.Opts) (s : Librato.State) (now : Int) (user key : Str) (hu : 58 ∉ user) :
    (∀ b, Librato.send o s now = .posted b → ∃ r, Librato.request user key (Librato.send o s now) = some r ∧
      r.method = bs "POST" ∧ r.url = bs "https://metrics-api.librato.com/v1/metrics" ∧ r.body = b ∧
      (bs "Content-Type", bs "application/json") ∈ r.headers ∧ credentials r = some (user, key)) ∧
    ((∀ b, Librato.send o s now ≠ .posted b) → Librato.request user key (Librato.send o s now) = none) := by
  constructor
  · intro b hb
    refine ⟨_, by rw [hb]; rfl, rfl, rfl, rfl, by simp, ?_⟩
    exact (credentials_request (x := .posted b) rfl).trans (cut_append hu key)
  · intro h
    cases hs : Librato.send o s now with
    | posted b => exact absurd hs (h b)
    | nothing => rfl
    | failed => rfl

/-- a colon in the user's name: the server takes what is before it for the user and the rest for a part of the key — so a wrong
user and a wrong key. -/
theorem C100_colon {u v key : Str} (hu : 58 ∉ u) {x : Librato.Sent} {r : HttpRequest} (hr : Librato.request (u ++ 58 :: v) key x = some r) :
    credentials r = some (u, v ++ 58 :: key) ∧ credentials r ≠ some (u ++ 58 :: v, key) := by
  have h : credentials r = some (u, v ++ 58 :: key) := by
    rw [credentials_request hr, List.append_assoc, List.cons_append, cut_append hu]
  refine ⟨h, ?_⟩
  rw [h]
  intro he
  have h1 := congrArg List.length (Prod.ext_iff.1 (Option.some.inj he)).1
  simp at h1

/-- nobody can put headers of their own into the request: whatever user and key are, the values of its headers are values of headers. -/
theorem C100_headers {user key : Str} {x : Librato.Sent} {r : HttpRequest} (hr : Librato.request user key x = some r) :
    ∀ h ∈ r.headers, fieldValue h.2 := by
  cases x with
  | posted b =>
    cases hr
    intro h hh
    simp only [List.mem_cons, List.not_mem_nil, or_false] at hh
    rcases hh with hh | hh
    · subst hh; unfold fieldValue; decide +kernel
    · subst hh
      intro c hc
      rcases List.mem_append.1 hc with hc | hc
      · have hb : ∀ c ∈ bs "Basic ", 32 ≤ c ∧ c ≠ 127 := by decide +kernel
        exact hb c hc
      · exact encode_visible _ c hc
  | nothing => cases hr
  | failed => cases hr

/-! a request; the server reads it (user "u\n", key "k:1") -/
example : (Librato.request [117, 10] (bs "k:1") (.posted (bs "{}"))).map (fun r => (r.headers.map (·.2), credentials r)) =
    some ([bs "application/json", bs "Basic dQo6azox"], some ([117, 10], bs "k:1")) := by decide +kernel
example : (Librato.request (bs "a:b") (bs "k") (.posted (bs "{}"))).bind credentials = some (bs "a", bs "b:k") := by decide +kernel
example : Base64.encode (bs "light work.") = bs "bGlnaHQgd29yay4=" := by decide +kernel

end ServerAuth

namespace Bugsnag
open Spec

theorem request_eq (c : Config) (job event message : Str) (fs : List Stack.Frame) (kvs : Option (GoMap Str Str)) :
    request c job event message fs kvs = some ⟨bs "POST", c.endpoint, [(bs "Content-Type", bs "application/json")],
      (newPayload c job event message fs kvs).enc (JVal.indented [9]) 0⟩ := by
  have henc : (newPayload c job event message fs kvs).encodable = true := by
    simp only [newPayload, JVal.encodable, JVal.encodableMembers, JVal.encodableElems, framesJson_encodable, kvsJson_encodable, Bool.and_self]
  unfold request JVal.marshalIndent
  rw [if_pos henc]; rfl

/-- **C100** (requests of the Bugsnag sink): a report of a sink made with configuration `c` is one POST of the notification, as JSON, to
the endpoint that was configured, or to Bugsnag's if none was. -/
theorem C100_bugsnag (c : Config) (job event message : Str) (fs : List Stack.Frame) (kvs : Option (GoMap Str Str)) (answer : Answer)
    (hc : IsUtf8 c.apiKey ∧ IsUtf8 c.releaseStage ∧ IsUtf8 c.hostname) (hj : IsUtf8 job ∧ IsUtf8 event ∧ IsUtf8 message)
    (hf : ∀ f ∈ fs, FrameUtf8 f) (hw : ∀ m, kvs = some m → m.Wf ∧ ∀ p ∈ m, IsUtf8 p.1 ∧ IsUtf8 p.2) :
    ∃ r j, request c.withDefault job event message fs kvs = some r ∧ (notify c.withDefault job event message fs kvs answer).1 = some r.body ∧
      r.method = bs "POST" ∧ (c.endpoint ≠ [] → r.url = c.endpoint) ∧ (c.endpoint = [] → r.url = bs "https://notify.bugsnag.com/") ∧
      r.headers = [(bs "Content-Type", bs "application/json")] ∧ readJson r.body = some j ∧ Notifies c job event message fs kvs j := by
  have hd : c.withDefault.apiKey = c.apiKey ∧ c.withDefault.releaseStage = c.releaseStage ∧ c.withDefault.hostname = c.hostname := by
    unfold Config.withDefault; split <;> exact ⟨rfl, rfl, rfl⟩
  obtain ⟨b, j, h1, h2, h3⟩ := C60_payload c.withDefault job event message fs kvs answer (by rw [hd.1, hd.2.1, hd.2.2]; exact hc) hj hf hw
  have hb : b = (newPayload c.withDefault job event message fs kvs).enc (JVal.indented [9]) 0 := by
    have hr := request_eq c.withDefault job event message fs kvs
    unfold request at hr
    obtain ⟨d, hm, he⟩ := Option.map_eq_some_iff.1 hr
    have hn : (notify c.withDefault job event message fs kvs answer).1 = some d := by
      unfold notify; rw [hm]; cases answer <;> rfl
    rw [h1] at hn
    exact (Option.some.inj hn).trans (congrArg HttpRequest.body he)
  refine ⟨_, j, request_eq _ _ _ _ _ _, hb ▸ h1, rfl, ?_, ?_, rfl, hb ▸ h2, ?_⟩
  · intro h; simp [Config.withDefault, h]
  · intro h; simp [Config.withDefault, h]
  · exact ⟨hd.1 ▸ h3.apiKey, by have := h3.event; rw [hd.2.1, hd.2.2] at this; exact this, h3.notifier⟩

/-- **C101 is false**: api.go:22-33 says that the release stage defaults to "production" and the host name to the machine's; a sink whose
configuration leaves them out reports two empty texts.  And the version of the app, which is said to be used by Bugsnag, is not sent:
the request does not depend on it.  (That the endpoint has its default is a part of `C100_bugsnag`.) -/
theorem C101_false (c : Config) (job event message : Str) (fs : List Stack.Frame) (kvs : Option (GoMap Str Str))
    (hc : IsUtf8 c.apiKey) (hj : IsUtf8 job ∧ IsUtf8 event ∧ IsUtf8 message)
    (hf : ∀ f ∈ fs, FrameUtf8 f) (hw : ∀ m, kvs = some m → m.Wf ∧ ∀ p ∈ m, IsUtf8 p.1 ∧ IsUtf8 p.2) :
    (c.releaseStage = [] → c.hostname = [] → ∃ r j e app device, request c.withDefault job event message fs kvs = some r ∧
      readJson r.body = some j ∧ j.field (bs "events") = some (.arr [e]) ∧
      e.field (bs "app") = some app ∧ app.field (bs "releaseStage") = some (.str []) ∧
      e.field (bs "device") = some device ∧ device.field (bs "hostname") = some (.str [])) ∧
    ∀ v, request { c with appVersion := v }.withDefault job event message fs kvs = request c.withDefault job event message fs kvs := by
  constructor
  · intro hr hh
    obtain ⟨r, j, h1, _, _, _, _, _, h2, h3⟩ := C100_bugsnag c job event message fs kvs .none
      ⟨hc, by rw [hr]; exact ⟨[], by simp, rfl⟩, by rw [hh]; exact ⟨[], by simp, rfl⟩⟩ hj hf hw
    obtain ⟨e, x, app, device, m, a1, _, _, _, _, _, _, a2, a3, a4, a5, _⟩ := h3.event
    exact ⟨r, j, e, app, device, h1, h2, a1, a2, hr ▸ a3, a4, hh ▸ a5⟩
  · intro v
    have h : ∀ w : Config, w.withDefault.endpoint = if w.endpoint = [] then bs "https://notify.bugsnag.com/" else w.endpoint := by
      intro w; unfold Config.withDefault; split <;> rfl
    have hd : ∀ w : Config, w.withDefault.apiKey = w.apiKey ∧ w.withDefault.releaseStage = w.releaseStage ∧ w.withDefault.hostname = w.hostname := by
      intro w; unfold Config.withDefault; split <;> exact ⟨rfl, rfl, rfl⟩
    rw [request_eq, request_eq, h, h]
    simp only [newPayload, (hd _).1, (hd _).2.1, (hd _).2.2]

/-! a configuration with nothing but a key meets the hypotheses -/
example : ∃ c : Config, c.releaseStage = [] ∧ c.hostname = [] ∧ IsUtf8 c.apiKey ∧ FrameUtf8 bugFrame := by
  have h : validUtf8 (bs "c9d6") = true ∧ validUtf8 bugFrame.file = true ∧ validUtf8 (bugFrame.package ++ bs ":" ++ bugFrame.name) = true := by
    decide +kernel
  exact ⟨⟨bs "c9d6", [], [], bs "1.2", []⟩, rfl, rfl, (validUtf8_iff _).1 h.1, ⟨(validUtf8_iff _).1 h.2.1, (validUtf8_iff _).1 h.2.2⟩⟩

end Bugsnag
