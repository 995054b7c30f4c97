import Verif.Model.LogFile
import Verif.Spec.LogFile
import Verif.Props.Writer
import Verif.Props.ConcurrentSystem
/-!
# C94: log files can be read back, also when many goroutines write to them
-/
open Spec Concurrent
namespace LogFile

/-! ## One call -/

theorem payloadValid {c : SinkCall} {m : Stmt} (h : Conveys c (m.1, m.2.1)) (hf : FloatsOk m) : PayloadValid c.payload := by
  obtain ⟨_, h⟩ := h
  unfold FloatsOk at hf
  cases hm : m.2.1 with
  | gauge ev v => simp only [hm] at h hf; rw [h]; exact hf ev v rfl
  | eventErr ev e t => simp only [hm] at h; obtain ⟨g, h, _⟩ := h; rw [h]; trivial
  | complete st => simp only [hm] at h; obtain ⟨n, h⟩ := h; rw [h]; trivial
  | event ev => simp only [hm] at h; rw [h]; trivial
  | timing ev n => simp only [hm] at h; rw [h]; trivial

theorem get_of_mem {m : GoMap Str Str} (hw : m.Wf) {q : Str × Str} (h : q ∈ m) : m.get? q.1 = some q.2 := (GoMap.get?_iff_mem hw).2 h

theorem callerStrings_in {c : SinkCall} {m : Stmt} (h : Conveys c (m.1, m.2.1)) (hk : ∀ k, lookup c.seen k = m.2.2 k) (hw : ∀ x, c.seen = some x → x.Wf) :
    ∀ s ∈ callerStrings c.job c.payload c.seen, s = [] ∨ InStmt m s := by
  intro s hs
  obtain ⟨h1, h⟩ := h
  simp only at h1
  have hkv : s ∈ (c.seen.getD []).flatMap (fun p => [p.1, p.2]) → InStmt m s := by
    intro hs
    cases hm : c.seen with
    | none => rw [hm] at hs; simp at hs
    | some x =>
      rw [hm] at hs
      simp only [Option.getD_some, List.mem_flatMap] at hs
      obtain ⟨q, hq, hs⟩ := hs
      have hv : m.2.2 q.1 = some q.2 := by rw [← hk, hm]; exact get_of_mem (hw x hm) hq
      simp only [List.mem_cons, List.not_mem_nil, or_false] at hs
      rcases hs with rfl | rfl
      · exact .key _ _ hv
      · exact .value _ _ hv
  unfold callerStrings at hs
  rcases List.mem_cons.1 hs with rfl | hs
  · rw [h1]; exact .inr .job
  rcases List.mem_append.1 hs with hs | hs
  · cases hm : m.2.1 with
    | event ev =>
      simp only [hm] at h
      simp only [h, List.mem_singleton] at hs
      exact .inr (.event s (by rw [hm, hs]))
    | eventErr ev e t =>
      simp only [hm] at h
      obtain ⟨g, h, hg⟩ := h
      simp only [h, List.mem_cons, List.not_mem_nil, or_false] at hs
      rcases hs with rfl | rfl
      · exact .inr (.error _ e t hm)
      · rw [hg]
        cases he : e.message with
        | none => exact .inl rfl
        | some x => exact .inr (.message ev e t x hm he)
    | timing ev n =>
      simp only [hm] at h
      simp only [h, List.mem_singleton] at hs
      exact .inr (.timing s n (by rw [hm, hs]))
    | gauge ev v =>
      simp only [hm] at h
      simp only [h, List.mem_singleton] at hs
      exact .inr (.gauge s v (by rw [hm, hs]))
    | complete st =>
      simp only [hm] at h
      obtain ⟨n, h⟩ := h
      simp [h] at hs
  · exact .inr (hkv hs)

theorem middleSays {c : SinkCall} {m : Stmt} (h : Conveys c (m.1, m.2.1)) {mid : Str} (hs : Says mid c.payload) : MiddleSays mid m.2.1 := by
  obtain ⟨_, h⟩ := h
  cases hm : m.2.1 with
  | event ev => simp only [hm] at h; rw [h] at hs; exact hs
  | eventErr ev e t => simp only [hm] at h; obtain ⟨g, h, hg⟩ := h; rw [h] at hs; obtain ⟨x, h1, h2⟩ := hs; exact ⟨x, hg ▸ h1, h2⟩
  | timing ev n => simp only [hm] at h; rw [h] at hs; exact hs
  | gauge ev v => simp only [hm] at h; rw [h] at hs; exact hs
  | complete st => simp only [hm] at h; obtain ⟨n, h⟩ := h; rw [h] at hs; obtain ⟨d, h1, h2⟩ := hs; exact ⟨n, d, h1, h2⟩

theorem tailSays {kvs : Option (GoMap Str Str)} {kv : Str → Option Str} (hk : ∀ k, lookup kvs k = kv k) (hw : ∀ x, kvs = some x → x.Wf) {tail : Str}
    (h : ListsKvs tail kvs) : TailSays tail kv := by
  cases kvs with
  | none => exact .inl ⟨h, fun k => by rw [← hk]; rfl⟩
  | some x =>
    obtain ⟨ps, ⟨h1, h2⟩, h3⟩ := h
    refine .inr ⟨ps, h2, fun k v => ?_, h3⟩
    rw [h1.mem_iff, ← hk]
    exact (GoMap.get?_iff_mem (hw x rfl)).symm

/-- the line of a call. -/
def lineOf (x : Timed) : Str := (((WriterSink.emit x.1 x.2.job x.2.payload x.2.seen).getD []).flatten).dropLast

theorem line_of_call {k : Nat} {c : SinkCall} {m : Stmt} (h : TellsTo (k, m) c) (hw : ∀ x, c.seen = some x → x.Wf) (hf : FloatsOk m) (he : ErrorsOk m)
    (hn : ∀ s, InStmt m s → (10 : UInt8) ∉ s) {ns : Int} (hy : FourDigitYear ns 0) :
    WriterSink.emit ns c.job c.payload c.seen = some [lineOf (ns, c) ++ [10]] ∧ (10 : UInt8) ∉ lineOf (ns, c) ∧ LineSays (lineOf (ns, c)) ns m := by
  obtain ⟨_, h, hk, _⟩ := h
  cases hw' : WriterSink.emit ns c.job c.payload c.seen with
  | none =>
    exfalso
    obtain ⟨e, err, h1, h2⟩ := (C36_panics ns c.job c.payload c.seen).1 hw'
    obtain ⟨_, h⟩ := h
    cases hm : m.2.1 with
    | eventErr ev e' t =>
      simp only [hm] at h
      obtain ⟨g, h, hg⟩ := h
      rw [h] at h1
      simp only [Payload.eventErr.injEq] at h1
      exact he ev e' t hm (by rw [← hg, h1.2, h2])
    | complete st => simp only [hm] at h; obtain ⟨n, h⟩ := h; rw [h] at h1; cases h1
    | event ev => simp only [hm] at h; rw [h] at h1; cases h1
    | timing ev n => simp only [hm] at h; rw [h] at h1; cases h1
    | gauge ev v => simp only [hm] at h; rw [h] at h1; cases h1
  | some w =>
    have hs := callerStrings_in h hk hw
    obtain ⟨line, h1, h2⟩ := C36_one_line ns c.job c.payload c.seen hw (fun s hx => (hs s hx).elim (fun e => by simp [e]) (hn s)) w hw'
    obtain ⟨ts, mid, tail, h3, h4, h5, h6⟩ := C36_line ns c.job c.payload c.seen (payloadValid h hf) hw hy w hw'
    have hl : lineOf (ns, c) = line := by simp [lineOf, hw', h1]
    rw [hl]
    refine ⟨by rw [h1], h2, ts, mid, tail, ?_, h4, middleSays h h5, tailSays hk hw h6⟩
    rw [h1] at h3
    simp only [List.cons.injEq, and_true] at h3
    have e : bs "\n" = [10] := by decide +kernel
    rw [e] at h3
    rw [← h.1]
    exact List.append_cancel_right h3

/-- JSON can express the call. -/
def fitsJson (c : SinkCall) : Bool :=
  match c.payload with
  | .gauge _ v => v.isFinite
  | _ => true

theorem fitsJson_eq {k : Nat} {c : SinkCall} {m : Stmt} (h : TellsTo (k, m) c) : fitsJson c = inJson m := by
  obtain ⟨_, ⟨_, h⟩, _⟩ := h
  unfold fitsJson inJson
  cases hm : m.2.1 with
  | eventErr ev e t => simp only [hm] at h; obtain ⟨g, h, _⟩ := h; rw [h]
  | complete st => simp only [hm] at h; obtain ⟨n, h⟩ := h; rw [h]
  | event ev => simp only [hm] at h; rw [h]
  | timing ev n => simp only [hm] at h; rw [h]
  | gauge ev v => simp only [hm] at h; rw [h]

/-- the record of a call, as it is read. -/
def recordOf (x : Timed) : Json := (JsonWriterSink.record x.1 x.2.job x.2.payload x.2.seen).view

theorem record_encodable {x : Timed} (h : fitsJson x.2 = true) : (JsonWriterSink.record x.1 x.2.job x.2.payload x.2.seen).encodable = true := by
  unfold fitsJson at h
  cases hp : x.2.payload with
  | gauge e v => rw [hp] at h; simp only at h; simp [JsonWriterSink.record, JVal.encodable, JVal.encodableMembers, kvsJson_encodable, h]
  | _ => simp [JsonWriterSink.record, JVal.encodable, JVal.encodableMembers, kvsJson_encodable]

theorem emit_of_fits {x : Timed} (h : fitsJson x.2 = true) : JsonWriterSink.emit x.1 x.2.job x.2.payload x.2.seen =
    [(JsonWriterSink.record x.1 x.2.job x.2.payload x.2.seen).enc JVal.compact 0] := by
  simp [JsonWriterSink.emit, JVal.marshal, record_encodable h]

theorem emit_of_not_fits {x : Timed} (h : ¬ fitsJson x.2 = true) : JsonWriterSink.emit x.1 x.2.job x.2.payload x.2.seen = [] := by
  unfold fitsJson at h
  cases hp : x.2.payload with
  | gauge e v => rw [hp] at h; exact (C38_writes _ _ _ _).1 e v rfl (by simpa using h)
  | _ => rw [hp] at h; simp at h

theorem isUtf8_nil : IsUtf8 [] := by rw [← validUtf8_iff]; decide

theorem record_of_call {k : Nat} {c : SinkCall} {m : Stmt} (h : TellsTo (k, m) c) (hw : ∀ x, c.seen = some x → x.Wf) (hf : FloatsOk m)
    (hu : ∀ s, InStmt m s → IsUtf8 s) {ns : Int} (hy : FourDigitYear ns 0) (hj : inJson m = true) : RecordSays (recordOf (ns, c)) ns m := by
  have hfit : fitsJson c = true := by rw [fitsJson_eq h, hj]
  obtain ⟨_, h, hk, _⟩ := h
  have hs := callerStrings_in h hk hw
  obtain ⟨j, h1, h2⟩ := C38_lossless ns c.job c.payload c.seen (payloadValid h hf) hw (fun s hx => (hs s hx).elim (fun e => e ▸ isUtf8_nil) (hu s)) hy
    ((JsonWriterSink.record ns c.job c.payload c.seen).enc JVal.compact 0) (by rw [emit_of_fits (x := (ns, c)) hfit]; simp)
  have e : recordOf (ns, c) = j := by
    have := JVal.readJson_enc JVal.compact_ok _ (record_encodable (x := (ns, c)) hfit)
    simp only at this
    rw [h1] at this
    exact (Option.some.inj this).symm
  rw [e]
  obtain ⟨f1, f2, f3, x, f4, f5⟩ := h2
  refine ⟨by rw [f1, h.1], f2, ?_, ?_⟩
  · obtain ⟨_, h⟩ := h
    cases hm : m.2.1 with
    | event ev => simp only [hm] at h; rw [h] at f3; exact f3
    | eventErr ev e t => simp only [hm] at h; obtain ⟨g, h, hg⟩ := h; rw [h] at f3; exact ⟨f3.1, fun s hs => f3.2 s (hg ▸ hs)⟩
    | timing ev n => simp only [hm] at h; rw [h] at f3; exact f3
    | gauge ev v => simp only [hm] at h; rw [h] at f3; exact f3
    | complete st => simp only [hm] at h; obtain ⟨n, h⟩ := h; rw [h] at f3; exact ⟨f3.1, n, f3.2⟩
  · cases hm : c.seen with
    | none =>
      rw [hm] at f5
      refine .inl ⟨by rw [f4, f5], fun k => by rw [← hk, hm]; rfl⟩
    | some y =>
      rw [hm] at f5
      obtain ⟨ms, g1, _, g2⟩ := f5
      refine .inr ⟨ms, by rw [f4, g1], fun k => ?_⟩
      rw [g2, ← hk, hm]
      rfl

/-! ## The file -/

theorem lines_append {l : Str} (h : (10 : UInt8) ∉ l) (s : Str) : lines (l ++ 10 :: s) = (l :: (lines s).1, (lines s).2) := by
  induction l with
  | nil => simp [lines]
  | cons c l ih =>
    simp only [List.mem_cons, not_or] at h
    rw [List.cons_append, lines, if_neg (fun e => h.1 e.symm), ih h.2]

theorem text_lines : ∀ (cs : List Timed), (∀ x ∈ cs, WriterSink.emit x.1 x.2.job x.2.payload x.2.seen = some [lineOf x ++ [10]] ∧ (10 : UInt8) ∉ lineOf x) →
    ∃ file, text cs = some file ∧ lines file = (cs.map lineOf, [])
  | [], _ => ⟨[], rfl, rfl⟩
  | x :: cs, h => by
    obtain ⟨f, h1, h2⟩ := text_lines cs (fun y hy => h y (by simp [hy]))
    obtain ⟨g1, g2⟩ := h x (by simp)
    refine ⟨lineOf x ++ 10 :: f, by simp [text, g1, h1], ?_⟩
    rw [lines_append g2, h2]
    rfl

theorem json_cons (x : Timed) (cs : List Timed) : json (x :: cs) = (JsonWriterSink.emit x.1 x.2.job x.2.payload x.2.seen).flatten ++ json cs := rfl

theorem enc_head (x : Timed) : ∃ r, (JsonWriterSink.record x.1 x.2.job x.2.payload x.2.seen).enc JVal.compact 0 = 123 :: r := by
  cases x.2.payload <;> simp [JsonWriterSink.record, JVal.enc, JVal.compact]

theorem json_stop : ∀ cs : List Timed, JVal.Stop (json cs)
  | [] => by intro c hc; simp [json] at hc
  | x :: cs => by
    rw [json_cons]
    by_cases h : fitsJson x.2 = true
    · rw [emit_of_fits h]
      obtain ⟨r, e⟩ := enc_head x
      intro c hc
      simp [e] at hc
      subst hc
      decide
    · rw [emit_of_not_fits h]
      exact json_stop cs

theorem readAll_json : ∀ (cs : List Timed) (fuel : Nat), (json cs).length < fuel → readAll fuel (json cs) = some ((cs.filter (fun x => fitsJson x.2)).map recordOf)
  | [], fuel, h => by
    obtain ⟨n, rfl⟩ : ∃ n, fuel = n + 1 := ⟨fuel - 1, by omega⟩
    simp [json, readAll, ws]
  | x :: cs, fuel, h => by
    rw [json_cons] at h ⊢
    by_cases hx : fitsJson x.2 = true
    · rw [emit_of_fits hx] at h ⊢
      simp only [List.flatten_cons, List.flatten_nil, List.append_nil] at h ⊢
      obtain ⟨n, rfl⟩ : ∃ n, fuel = n + 1 := ⟨fuel - 1, by omega⟩
      have hr := JVal.read_enc JVal.compact_ok _ (record_encodable hx) 0
        (((JsonWriterSink.record x.1 x.2.job x.2.payload x.2.seen).enc JVal.compact 0 ++ json cs).length + 1) (json cs) (json_stop cs) (by simp; omega)
      obtain ⟨r, e⟩ := enc_head x
      rw [readAll, if_neg (by rw [e, List.cons_append, JVal.ws_cons (by decide)]; simp), hr, Option.bind_some]
      have hl : 0 < ((JsonWriterSink.record x.1 x.2.job x.2.payload x.2.seen).enc JVal.compact 0).length := by rw [e]; simp
      rw [readAll_json cs n (by rw [List.length_append] at h; omega), List.filter_cons_of_pos (by simpa using hx)]
      rfl
    · rw [emit_of_not_fits hx] at h ⊢
      rw [List.filter_cons_of_neg (by simpa using hx)]
      exact readAll_json cs fuel h

/-! ## Many goroutines -/

theorem seen_step {clock : Nat → Int} {s s' : State} (hm : ∀ m ∈ s.world.maps, GoMap.Wf m) {a : Nat} (hs : step clock s a = some s')
    (h : ∀ x ∈ s.log, ∀ m, x.2.seen = some m → m.Wf) : ∀ x ∈ s'.log, ∀ m, x.2.seen = some m → m.Wf := by
  unfold step at hs
  cases hta : s.threads[a]? with
  | none => rw [hta] at hs; cases hs
  | some t =>
    rw [hta] at hs
    obtain ⟨r, hr, rfl⟩ := Option.map_eq_some_iff.1 hs
    intro x hx
    rcases List.mem_append.1 hx with hx | hx
    · exact h x hx
    · obtain ⟨c, hc, rfl⟩ := List.mem_map.1 hx
      intro m hseen
      simp only at hseen
      unfold tstep at hr
      repeat' split at hr
      all_goals first
        | cases hr; done
        | (simp only [Option.map_eq_some_iff] at hr; obtain ⟨_, _, rfl⟩ := hr; simp at hc; done)
        | (simp only [Option.some.injEq] at hr; subst hr; simp at hc; done)
        | skip
      simp only [Option.some.injEq] at hr
      subst hr
      simp only [List.mem_singleton] at hc
      subst hc
      simp only [World.deref] at hseen
      obtain ⟨i, _, hi⟩ := Option.bind_eq_some_iff.1 hseen
      exact hm m (List.mem_of_getElem? hi)

theorem seen_run {w0 : World} (h0 : World.Ok w0) {progs : List (List Concurrent.Op)} {clock : Nat → Int} : ∀ (sched : List Nat) {s s' : State}, Inv w0 progs s →
    (∀ x ∈ s.log, ∀ m, x.2.seen = some m → m.Wf) → run clock s sched = some s' → ∀ x ∈ s'.log, ∀ m, x.2.seen = some m → m.Wf
  | [], s, s', _, h, hr => by cases hr; exact h
  | a :: r, s, s', hi, h, hr => by
    simp only [run, List.foldlM_cons] at hr
    obtain ⟨s1, hs, hr⟩ := Option.bind_eq_some_iff.1 hr
    exact seen_run h0 r (inv_step h0 hi hs) (seen_step hi.mem.wf hs h) hr

/-- the calls of sink `k` by goroutine `a` and the statements of its program. -/
theorem statements_of {clock : Nat → Int} {w0 : World} (h0 : Reachable clock w0) {progs : List (List Concurrent.Op)} (hd : ∀ p ∈ progs, Disciplined w0.jobs.length 0 p)
    {sched : List Nat} {s : State} (hr : run clock (start w0 progs) sched = some s) {k : Nat} (hk : w0.sinks.filter (· = k) = [k]) {a : Nat} {p : List Concurrent.Op} {t : Thread}
    (hp : progs[a]? = some p) (ht : s.threads[a]? = some t) :
    ∃ D, D <+: toldIn w0 p ∧ List.Forall₂ (fun m c => TellsTo (k, m) c) D ((callsOf a s).filter (fun c => c.sink = k)) ∧ (Ended t → D = toldIn w0 p) := by
  obtain ⟨_, _, h3⟩ := C92_calls h0 hd hr
  obtain ⟨D, h4, h5, h6⟩ := h3 a p t hp ht
  have h7 := filter_tells (k := k) h5
  have h8 := h4.filter (fun x => x.1 = k)
  rw [toEach_filter hk] at h8
  obtain ⟨n, h9⟩ : ∃ n, D.filter (fun x => x.1 = k) = ((toldIn w0 p).take n).map (fun m => (k, m)) := by
    refine ⟨(D.filter (fun x => x.1 = k)).length, ?_⟩
    rw [List.map_take]
    exact List.prefix_iff_eq_take.1 h8
  rw [h9] at h7
  refine ⟨(toldIn w0 p).take n, List.take_prefix _ _, List.forall₂_map_left_iff.1 h7, fun hE => ?_⟩
  have := h6 hE
  rw [this, toEach_filter hk] at h9
  have := congrArg (List.map Prod.snd) h9
  simpa [List.map_map, Function.comp_def] using this.symm

theorem writtenBy_calls {k : Nat} {s : State} {L : List (Int × Nat × SinkCall)} (hL : L.map (·.2) = s.log.filter (fun x => x.2.sink = k)) (a : Nat) :
    (writtenBy a L).map (·.2) = (callsOf a s).filter (fun c => c.sink = k) := by
  have h1 : (writtenBy a L).map (·.2) = ((L.map (·.2)).filter (fun x => x.1 = a)).map (·.2) := by
    unfold writtenBy
    rw [List.map_map, List.filter_map, List.map_map]
    rfl
  rw [h1, hL, callsOf, List.filter_map, List.filter_filter, List.filter_filter]
  congr 1
  apply List.filter_congr
  intro x _
  simp [Bool.and_comm]

/-- every call in the log tells some statement of some program. -/
theorem call_tells {clock : Nat → Int} {w0 : World} (h0 : Reachable clock w0) {progs : List (List Concurrent.Op)} (hd : ∀ p ∈ progs, Disciplined w0.jobs.length 0 p)
    {sched : List Nat} {s : State} (hr : run clock (start w0 progs) sched = some s) {k : Nat} (hk : w0.sinks.filter (· = k) = [k])
    {L : List (Int × Nat × SinkCall)} (hL : L.map (·.2) = s.log.filter (fun x => x.2.sink = k)) {x : Int × Nat × SinkCall} (hx : x ∈ L) :
    (∃ p ∈ progs, ∃ m ∈ toldIn w0 p, TellsTo (k, m) x.2.2) ∧ ∀ m, x.2.2.seen = some m → m.Wf := by
  have hlog : x.2 ∈ s.log := by
    have : x.2 ∈ L.map (·.2) := List.mem_map_of_mem hx
    rw [hL] at this
    exact (List.mem_filter.1 this).1
  obtain ⟨h1, h2, _⟩ := C92_calls h0 hd hr
  have hlt := h1 _ hlog
  refine ⟨?_, seen_run (World.reachable_ok h0) sched (inv_start (World.reachable_ok h0) hd) (by simp [start]) hr _ hlog⟩
  obtain ⟨D, g1, g2, _⟩ := statements_of h0 hd hr hk (a := x.2.1) (p := progs[x.2.1]) (t := s.threads[x.2.1]'(by omega)) (by simp [hlt]) (by simp)
  have hmem : x.2.2 ∈ (callsOf x.2.1 s).filter (fun c => c.sink = k) := by
    rw [← writtenBy_calls hL]
    exact List.mem_map.2 ⟨(x.1, x.2.2), List.mem_map.2 ⟨x, List.mem_filter.2 ⟨hx, by simp⟩, rfl⟩, rfl⟩
  obtain ⟨i, hi, e⟩ := List.getElem_of_mem hmem
  refine ⟨progs[x.2.1], List.getElem_mem hlt, ?_⟩
  have hlen := g2.length_eq
  refine ⟨D[i], g1.subset (List.getElem_mem _), ?_⟩
  rw [← e]
  exact g2.get (by omega) hi

theorem forall₂_map_snd {α β γ : Type} {R : γ → β → Prop} : ∀ {l : List (α × β)} {ms : List γ}, List.Forall₂ R ms (l.map (·.2)) → List.Forall₂ (fun x m => R m x.2) l ms
  | [], ms, h => by cases h; exact .nil
  | x :: l, ms, h => by cases h with | cons h1 h2 => exact .cons h1 (forall₂_map_snd h2)

/-- C94: the file of a `WriterSink` to which many goroutines write is made of whole lines, one for each statement, with the time and all its key/values; the lines of a goroutine are in
the order of its program. -/
theorem C94_text {clock : Nat → Int} {w0 : World} (h0 : Reachable clock w0) {progs : List (List Concurrent.Op)} (hd : ∀ p ∈ progs, Disciplined w0.jobs.length 0 p)
    {sched : List Nat} {s : State} (hr : run clock (start w0 progs) sched = some s) {k : Nat} (hk : w0.sinks.filter (· = k) = [k])
    {L : List (Int × Nat × SinkCall)} (hL : L.map (·.2) = s.log.filter (fun x => x.2.sink = k)) (hy : ∀ x ∈ L, FourDigitYear x.1 0)
    (hm : ∀ p ∈ progs, ∀ m ∈ toldIn w0 p, FloatsOk m ∧ ErrorsOk m ∧ ∀ str, InStmt m str → (10 : UInt8) ∉ str) :
    ∃ (file : Str) (T : List (Int × Nat × Str)), text (L.map (fun x => (x.1, x.2.2))) = some file ∧ lines file = (T.map (·.2.2), []) ∧
      T.map (fun x => (x.1, x.2.1)) = L.map (fun x => (x.1, x.2.1)) ∧
      ∀ a p t, progs[a]? = some p → s.threads[a]? = some t →
        ∃ D, D <+: toldIn w0 p ∧ List.Forall₂ (fun x m => LineSays x.2 x.1 m) (writtenBy a T) D ∧ (Ended t → D = toldIn w0 p) := by
  have one : ∀ x ∈ L, ∀ m, TellsTo (k, m) x.2.2 → (∃ p ∈ progs, m ∈ toldIn w0 p) → WriterSink.emit x.1 x.2.2.job x.2.2.payload x.2.2.seen = some [lineOf (x.1, x.2.2) ++ [10]] ∧
      (10 : UInt8) ∉ lineOf (x.1, x.2.2) ∧ LineSays (lineOf (x.1, x.2.2)) x.1 m := by
    rintro x hx m ht ⟨p, hp, hmem⟩
    obtain ⟨f1, f2, f3⟩ := hm p hp m hmem
    exact line_of_call ht (call_tells h0 hd hr hk hL hx).2 f1 f2 f3 (hy x hx)
  obtain ⟨file, h1, h2⟩ := text_lines (L.map (fun x => (x.1, x.2.2))) (by
    intro y hyL
    obtain ⟨x, hx, rfl⟩ := List.mem_map.1 hyL
    obtain ⟨⟨p, hp, m, hmem, ht⟩, _⟩ := call_tells h0 hd hr hk hL hx
    obtain ⟨f1, f2, _⟩ := one x hx m ht ⟨p, hp, hmem⟩
    exact ⟨f1, f2⟩)
  refine ⟨file, L.map (fun x => (x.1, x.2.1, lineOf (x.1, x.2.2))), h1, ?_, ?_, ?_⟩
  · rw [h2, List.map_map, List.map_map]; rfl
  · rw [List.map_map]; rfl
  · intro a p t hp ht
    obtain ⟨D, g1, g2, g3⟩ := statements_of h0 hd hr hk hp ht
    refine ⟨D, g1, ?_, g3⟩
    rw [← writtenBy_calls hL] at g2
    have g4 := forall₂_map_snd g2
    have e : writtenBy a (L.map (fun x => (x.1, x.2.1, lineOf (x.1, x.2.2)))) = (writtenBy a L).map (fun x => (x.1, lineOf (x.1, x.2))) := by
      unfold writtenBy
      rw [List.filter_map, List.map_map, List.map_map]
      rfl
    rw [e, List.forall₂_map_left_iff]
    have hpm : p ∈ progs := List.mem_of_getElem? hp
    have g5 : List.Forall₂ (fun x m => TellsTo (k, m) x.2 ∧ (x ∈ writtenBy a L ∧ m ∈ D)) (writtenBy a L) D := by
      refine List.forall₂_iff_get.2 ⟨g4.length_eq, fun i hi hi' => ⟨g4.get hi hi', List.get_mem _ _, List.get_mem _ _⟩⟩
    refine g5.imp ?_
    rintro x m ⟨h1, h2, h3⟩
    obtain ⟨y, hy1, rfl⟩ := List.mem_map.1 h2
    exact (one y (List.mem_filter.1 hy1).1 m h1 ⟨p, hpm, g1.subset h3⟩).2.2

/-- C94: the file of a `JsonWriterSink` to which many goroutines write can be read as a sequence of JSON values, one for each statement that JSON can express, which say all that the
statements say, and when; the records of a goroutine are in the order of its program. -/
theorem C94_json {clock : Nat → Int} {w0 : World} (h0 : Reachable clock w0) {progs : List (List Concurrent.Op)} (hd : ∀ p ∈ progs, Disciplined w0.jobs.length 0 p)
    {sched : List Nat} {s : State} (hr : run clock (start w0 progs) sched = some s) {k : Nat} (hk : w0.sinks.filter (· = k) = [k])
    {L : List (Int × Nat × SinkCall)} (hL : L.map (·.2) = s.log.filter (fun x => x.2.sink = k)) (hy : ∀ x ∈ L, FourDigitYear x.1 0)
    (hm : ∀ p ∈ progs, ∀ m ∈ toldIn w0 p, FloatsOk m ∧ ∀ str, InStmt m str → IsUtf8 str) :
    ∃ T : List (Int × Nat × Json), readLog (json (L.map (fun x => (x.1, x.2.2)))) = some (T.map (·.2.2)) ∧
      (T.map (fun x => (x.1, x.2.1))).Sublist (L.map (fun x => (x.1, x.2.1))) ∧
      ∀ a p t, progs[a]? = some p → s.threads[a]? = some t →
        ∃ D, D <+: toldIn w0 p ∧ List.Forall₂ (fun x m => RecordSays x.2 x.1 m) (writtenBy a T) (D.filter inJson) ∧ (Ended t → D = toldIn w0 p) := by
  refine ⟨(L.filter (fun x => fitsJson x.2.2)).map (fun x => (x.1, x.2.1, recordOf (x.1, x.2.2))), ?_, ?_, ?_⟩
  · unfold readLog
    rw [readAll_json _ _ (by omega), List.filter_map, List.map_map, List.map_map]
    rfl
  · rw [List.map_map]
    exact List.filter_sublist.map _
  · intro a p t hp ht
    obtain ⟨D, g1, g2, g3⟩ := statements_of h0 hd hr hk hp ht
    refine ⟨D, g1, ?_, g3⟩
    rw [← writtenBy_calls hL] at g2
    have g4 := forall₂_map_snd g2
    have e : writtenBy a ((L.filter (fun x => fitsJson x.2.2)).map (fun x => (x.1, x.2.1, recordOf (x.1, x.2.2)))) =
        ((writtenBy a L).filter (fun x => fitsJson x.2)).map (fun x => (x.1, recordOf (x.1, x.2))) := by
      unfold writtenBy
      rw [List.filter_map, List.map_map, List.filter_map, List.map_map, List.filter_filter, List.filter_filter]
      congr 1
      apply List.filter_congr
      intro x _
      simp [Bool.and_comm]
    rw [e, List.forall₂_map_left_iff]
    have hpm : p ∈ progs := List.mem_of_getElem? hp
    have g5 : List.Forall₂ (fun x m => TellsTo (k, m) x.2 ∧ (x ∈ writtenBy a L ∧ m ∈ D)) (writtenBy a L) D := by
      refine List.forall₂_iff_get.2 ⟨g4.length_eq, fun i hi hi' => ⟨g4.get hi hi', List.get_mem _ _, List.get_mem _ _⟩⟩
    have key : ∀ {xs : List Timed} {ms : List Stmt}, List.Forall₂ (fun x m => TellsTo (k, m) x.2 ∧ (x ∈ writtenBy a L ∧ m ∈ D)) xs ms →
        List.Forall₂ (fun x m => RecordSays (recordOf (x.1, x.2)) x.1 m) (xs.filter (fun x => fitsJson x.2)) (ms.filter inJson) := by
      intro xs ms h
      induction h with
      | nil => exact .nil
      | @cons x m xs ms h _ ih =>
        obtain ⟨h1, h2, h3⟩ := h
        have e := fitsJson_eq h1
        by_cases hj : inJson m = true
        · rw [List.filter_cons_of_pos (by rw [e, hj]), List.filter_cons_of_pos hj]
          refine .cons ?_ ih
          obtain ⟨y, hy1, rfl⟩ := List.mem_map.1 h2
          have hyL := (List.mem_filter.1 hy1).1
          obtain ⟨f1, f2⟩ := hm p hpm m (g1.subset h3)
          exact record_of_call h1 (call_tells h0 hd hr hk hL hyL).2 f1 f2 (hy y hyL) hj
        · rw [List.filter_cons_of_neg (by rw [e]; exact hj), List.filter_cons_of_neg hj]
          exact ih
    exact key g5

/-! ## JSON logs have no lines -/

theorem no10_escByte (b : UInt8) : (10 : UInt8) ∉ JVal.escByte b := by
  have hd : ∀ n, n < 16 → (10 : UInt8) ≠ JVal.hexDigit n := by decide +kernel
  unfold JVal.escByte
  repeat' split
  all_goals first
    | decide
    | (rename_i h _ _ _ _ _; rcases h with rfl | rfl <;> decide)
    | (rename_i h; rcases h with rfl | rfl <;> decide)
    | (have h1 := hd (b.toNat / 16) (by have := b.toNat_lt; omega)
       have h2 := hd (b.toNat % 16) (by omega)
       simp [h1, h2]; done)
    | (simp only [List.mem_singleton]; rintro rfl; simp_all; done)

theorem no10_encStr (s : Str) : (10 : UInt8) ∉ JVal.encStr s := by
  have key : ∀ r ∈ runes s, (10 : UInt8) ∉ JVal.escRune r := by
    intro r hr hc
    have hok := runes_ok s r hr
    cases r with
    | ascii b => exact no10_escByte b hc
    | multi bytes =>
      simp only [JVal.escRune] at hc
      split at hc
      · revert hc; decide +kernel
      · split at hc
        · revert hc; decide +kernel
        · exact absurd (hok.2 _ hc) (by decide)
    | bad b => revert hc; simp only [JVal.escRune]; decide +kernel
  unfold JVal.encStr
  simp only [List.mem_append, List.mem_flatMap, not_or]
  refine ⟨⟨by decide, ?_⟩, by decide⟩
  rintro ⟨r, hr, hc⟩
  exact key r hr hc

mutual
theorem no10_enc (v : JVal) (he : v.encodable = true) (d : Nat) : (10 : UInt8) ∉ v.enc JVal.compact d := by
  match v with
  | .null => rw [JVal.enc]; decide +kernel
  | .bool b => rw [JVal.enc]; cases b <;> decide +kernel
  | .int n => rw [JVal.enc]; exact no10_of_numChars (intStr_numChars n)
  | .float v => rw [JVal.enc]; exact no10_of_numChars (floatStr_numChars v he)
  | .str s => rw [JVal.enc]; exact no10_encStr s
  | .arr [] => rw [JVal.enc]; decide +kernel
  | .arr (x :: xs) =>
    rw [JVal.encodable, JVal.encodableElems, Bool.and_eq_true] at he
    rw [JVal.enc]
    simp only [List.mem_append, not_or]
    exact ⟨⟨⟨by decide, by simp [JVal.compact]⟩, no10_enc x he.1 _⟩, no10_elems xs he.2 d⟩
  | .obj [] => rw [JVal.enc]; decide +kernel
  | .obj ((k, v) :: ms) =>
    rw [JVal.encodable, JVal.encodableMembers, Bool.and_eq_true] at he
    rw [JVal.enc]
    simp only [List.mem_append, not_or]
    exact ⟨⟨⟨⟨⟨by decide, by simp [JVal.compact]⟩, no10_encStr k⟩, by simp [JVal.compact]⟩, no10_enc v he.1 _⟩, no10_members ms he.2 d⟩
theorem no10_elems (xs : List JVal) (he : JVal.encodableElems xs = true) (d : Nat) : (10 : UInt8) ∉ JVal.encElems JVal.compact d xs := by
  match xs with
  | [] => rw [JVal.encElems]; simp only [List.mem_append, not_or]; exact ⟨by simp [JVal.compact], by decide⟩
  | x :: xs =>
    rw [JVal.encodableElems, Bool.and_eq_true] at he
    rw [JVal.encElems]
    simp only [List.mem_append, not_or]
    exact ⟨⟨⟨by decide, by simp [JVal.compact]⟩, no10_enc x he.1 _⟩, no10_elems xs he.2 d⟩
theorem no10_members (ms : List (Str × JVal)) (he : JVal.encodableMembers ms = true) (d : Nat) : (10 : UInt8) ∉ JVal.encMembers JVal.compact d ms := by
  match ms with
  | [] => rw [JVal.encMembers]; simp only [List.mem_append, not_or]; exact ⟨by simp [JVal.compact], by decide⟩
  | (k, v) :: ms =>
    rw [JVal.encodableMembers, Bool.and_eq_true] at he
    rw [JVal.encMembers]
    simp only [List.mem_append, not_or]
    exact ⟨⟨⟨⟨⟨by decide, by simp [JVal.compact]⟩, no10_encStr k⟩, by simp [JVal.compact]⟩, no10_enc v he.1 _⟩, no10_members ms he.2 d⟩
end

/-- C94: a JSON log contains no newline, whatever is emitted: nobody can forge a line, but there are no lines either; only a reader of JSON can separate the records. -/
theorem C94_json_unseparated (cs : List Timed) : (10 : UInt8) ∉ json cs := by
  induction cs with
  | nil => simp [json]
  | cons x cs ih =>
    rw [json_cons, List.mem_append, not_or]
    refine ⟨?_, ih⟩
    by_cases h : fitsJson x.2 = true
    · rw [emit_of_fits h]
      simpa using no10_enc _ (record_encodable h) 0
    · rw [emit_of_not_fits h]
      simp

/-! ## What the conditions on the strings are good for -/
namespace Sample

def call (job : Str) (p : Payload) : SinkCall := ⟨3, job, p, none, none, false⟩
/-- 2015-02-28T23:59:59Z -/
def t0 : Int := (62135596800 + 1425167999) * 1000000000

/-- C94: with a newline in an event's name one emission is the same text as two. -/
theorem C94_text_forged : text [(t0, call (bs "web") (.event (bs "e\n[2015-02-28T23:59:59Z]: job:bank event:paid")))] =
    text [(t0, call (bs "web") (.event (bs "e"))), (t0, call (bs "bank") (.event (bs "paid")))] ∧
    (text [(t0, call (bs "web") (.event (bs "e"))), (t0, call (bs "bank") (.event (bs "paid")))]).isSome = true := by decide +kernel

/-- C94: also without newlines different emissions can be the same text: there is no escaping. -/
theorem C94_text_ambiguous : text [(t0, call (bs "a event:b") (.event (bs "c")))] = text [(t0, call (bs "a") (.event (bs "b event:c")))] ∧
    (text [(t0, call (bs "a") (.event (bs "b event:c")))]).isSome = true := by decide +kernel

/-! ## The hypotheses can be met: the goroutines of C92 -/
open Concurrent.Sample

/-- all strings that occur. -/
def vocabulary : List Str := [bs "env", bs "prod", bs "shared", bs "s", bs "1", bs "a", bs "u", bs "e", bs "2", bs "x", bs "no", bs "b", bs "9", bs "t"]

theorem vocabulary_ok : (∀ s ∈ vocabulary, (10 : UInt8) ∉ s) ∧ ∀ s ∈ vocabulary, IsUtf8 s := by
  simp only [← validUtf8_iff]
  decide +kernel

theorem streamKvs (k v : Str) (h : lookup (w0.deref w0.kvs) k = some v) : k ∈ vocabulary ∧ v ∈ vocabulary := by
  have e : w0.deref w0.kvs = some [(bs "env", bs "prod")] := by decide +kernel
  rw [e] at h
  have := GoMap.mem_of_get? h
  simp only [List.mem_singleton, Prod.mk.injEq] at this
  obtain ⟨rfl, rfl⟩ := this
  decide +kernel

theorem inForce_in {c : Option (GoMap Str Str)} {j : Str → Option Str} (hc : ∀ k v, lookup c k = some v → k ∈ vocabulary ∧ v ∈ vocabulary)
    (hj : ∀ k v, j k = some v → k ∈ vocabulary ∧ v ∈ vocabulary) (k v : Str) (h : inForce c j (lookup (w0.deref w0.kvs)) k = some v) : k ∈ vocabulary ∧ v ∈ vocabulary := by
  unfold inForce at h
  split at h
  · next x hx => cases h; exact hc k _ hx
  · split at h
    · next x hx => cases h; exact hj k _ hx
    · exact streamKvs k v h

theorem sharedKvs (k v : Str) (h : lookup (some [(bs "s", bs "1")]) k = some v) : k ∈ vocabulary ∧ v ∈ vocabulary := by
  have := GoMap.mem_of_get? h
  simp only [List.mem_singleton, Prod.mk.injEq] at this
  obtain ⟨rfl, rfl⟩ := this
  decide +kernel

theorem told_ok : ∀ p ∈ [pA, pB], ∀ m ∈ toldIn w0 p, FloatsOk m ∧ ErrorsOk m ∧ ∀ s, InStmt m s → s ∈ vocabulary := by
  have hs : w0.jobs.map (fun j => ((j.name, w0.deref j.kvs) : Str × Option (GoMap Str Str))) = [(bs "general", none), (bs "shared", some [(bs "s", bs "1")])] := by decide +kernel
  have hs' : w0.jobs.map (fun j => ((j.name, lookup (w0.deref j.kvs)) : JobInfo)) = [(bs "general", lookup none), (bs "shared", lookup (some [(bs "s", bs "1")]))] := by
    have := congrArg (List.map (fun x => ((x.1, lookup x.2) : JobInfo))) hs
    rw [List.map_map] at this
    exact this
  have none_in : ∀ k v, lookup none k = some v → k ∈ vocabulary ∧ v ∈ vocabulary := by intro k v h; cases h
  intro p hp m hm
  unfold toldIn at hm
  rw [hs'] at hm
  simp only [List.mem_cons, List.not_mem_nil, or_false] at hp
  rcases hp with rfl | rfl
  · simp only [pA, told, List.nil_append, List.modify_cons, ↓reduceIte, List.getElem?_cons_zero, Option.toList_some, List.map_cons, List.map_nil, List.getElem?_cons_succ,
      List.mem_append, List.mem_singleton, List.not_mem_nil, or_false] at hm
    rcases hm with rfl | rfl
    · refine ⟨by simp [FloatsOk], by simp [ErrorsOk], ?_⟩
      have hk := inForce_in (c := some [(bs "u", bs "2")]) (j := fun k' => if k' = bs "u" then some (bs "1") else none)
        (fun k v h => by
          have := GoMap.mem_of_get? h
          simp only [List.mem_singleton, Prod.mk.injEq] at this
          obtain ⟨rfl, rfl⟩ := this
          decide +kernel)
        (fun k v h => by
          split at h
          · next e => cases h; subst e; decide +kernel
          · cases h)
      intro s h
      cases h with
      | job => decide +kernel
      | event _ e => cases e; decide +kernel
      | error _ _ _ e => cases e
      | message _ _ _ _ e => cases e
      | timing _ _ e => cases e
      | gauge _ _ e => cases e
      | key _ _ e => exact (hk _ _ e).1
      | value _ _ e => exact (hk _ _ e).2
    · refine ⟨by simp [FloatsOk], by simp [ErrorsOk], ?_⟩
      have hk := inForce_in none_in sharedKvs
      intro s h
      cases h with
      | job => decide +kernel
      | event _ e => cases e
      | error _ _ _ e => cases e
      | message _ _ _ _ e => cases e
      | timing _ _ e => cases e
      | gauge _ _ e => cases e
      | key _ _ e => exact (hk _ _ e).1
      | value _ _ e => exact (hk _ _ e).2
  · simp only [pB, told, List.nil_append, List.modify_cons, ↓reduceIte, List.getElem?_cons_zero, Option.toList_some, List.map_cons, List.map_nil, List.getElem?_cons_succ,
      List.mem_append, List.mem_singleton, List.not_mem_nil, or_false] at hm
    rcases hm with rfl | rfl
    · refine ⟨by simp [FloatsOk], ?_, ?_⟩
      · rintro ev e t h
        cases h
        decide +kernel
      have hk := inForce_in none_in sharedKvs
      intro s h
      cases h with
      | job => decide +kernel
      | event _ e => cases e
      | error _ _ _ e => cases e; decide +kernel
      | message _ _ _ _ e h => cases e; cases h; decide +kernel
      | timing _ _ e => cases e
      | gauge _ _ e => cases e
      | key _ _ e => exact (hk _ _ e).1
      | value _ _ e => exact (hk _ _ e).2
    · refine ⟨by simp [FloatsOk], by simp [ErrorsOk], ?_⟩
      have hk := inForce_in (j := fun k' => if k' = bs "u" then some (bs "9") else none) none_in
        (fun k v h => by
          split at h
          · next e => cases h; subst e; decide +kernel
          · cases h)
      intro s h
      cases h with
      | job => decide +kernel
      | event _ e => cases e
      | error _ _ _ e => cases e
      | message _ _ _ _ e => cases e
      | timing _ _ e => cases e; decide +kernel
      | gauge _ _ e => cases e
      | key _ _ e => exact (hk _ _ e).1
      | value _ _ e => exact (hk _ _ e).2

/-- both logs of the goroutines of C92, when all is written at `t0`; the first goroutine has two lines in each. -/
example : ∃ (s : State) (L : List (Int × Nat × SinkCall)) (file : Str) (js : List Json) (T : List (Int × Nat × Json)), run clk (start w0 [pA, pB]) sched = some s ∧
    text (L.map (fun x => (x.1, x.2.2))) = some file ∧ (lines file).1.length = 4 ∧ (lines file).2 = [] ∧
    readLog (json (L.map (fun x => (x.1, x.2.2)))) = some js ∧ js = T.map (·.2.2) ∧
    List.Forall₂ (fun x m => RecordSays x.2 x.1 m) (writtenBy 0 T) (toldIn w0 pA) := by
  obtain ⟨s, hs, hE, _, _⟩ := ends
  have hk : w0.sinks.filter (· = 3) = [3] := by decide +kernel
  have hn : (s.log.filter (fun x => x.2.sink = 3)).length = 4 := by
    have h : (run clk (start w0 [pA, pB]) sched).map (fun s => (s.log.filter (fun x => x.2.sink = 3)).length) = some 4 := by decide +kernel
    rw [hs] at h
    exact Option.some.inj h
  have hL : ((s.log.filter (fun x => x.2.sink = 3)).map (fun x => (t0, x))).map (·.2) = s.log.filter (fun x => x.2.sink = 3) := by
    rw [List.map_map]; exact List.map_id _
  have hy : ∀ x ∈ (s.log.filter (fun x => x.2.sink = 3)).map (fun x => (t0, x)), FourDigitYear x.1 0 := by
    intro x hx
    obtain ⟨y, _, rfl⟩ := List.mem_map.1 hx
    show FourDigitYear t0 0
    unfold FourDigitYear
    decide +kernel
  obtain ⟨file, T, h1, h2, h3, _⟩ := C94_text reachable disciplined hs hk hL hy (fun p hp m hm =>
    ⟨(told_ok p hp m hm).1, (told_ok p hp m hm).2.1, fun x hx => vocabulary_ok.1 x ((told_ok p hp m hm).2.2 x hx)⟩)
  obtain ⟨T', h4, _, h5⟩ := C94_json reachable disciplined hs hk hL hy (fun p hp m hm =>
    ⟨(told_ok p hp m hm).1, fun x hx => vocabulary_ok.2 x ((told_ok p hp m hm).2.2 x hx)⟩)
  have hlt : 0 < s.threads.length := by rw [(C92_calls reachable disciplined hs).2.1]; decide
  obtain ⟨D, _, h6, h7⟩ := h5 0 pA s.threads[0] rfl (by simp [hlt])
  rw [h7 (hE _ (List.getElem_mem hlt)), show (toldIn w0 pA).filter inJson = toldIn w0 pA from rfl] at h6
  refine ⟨s, _, file, _, T', hs, h1, ?_, by rw [h2], h4, rfl, h6⟩
  rw [h2]
  have := congrArg List.length h3
  simp only [List.length_map] at this
  simp [this, hn]

end Sample
end LogFile
