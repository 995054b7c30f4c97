import Verif.Lemmas.Unmarshal
import Verif.Lemmas.F64Mono
import Verif.Lemmas.Exact
/-!
# The metrics document: format, contents, invariants
-/
open Spec Unmarshal

/-! ## `Fprintf` of a text without percent signs -/

theorem sprintfAux_clean {s : Str} (h : (37 : UInt8) ∉ s) : ∀ n, s.length < n → Fprintf.sprintfAux n s = s := by
  induction s with
  | nil => intro n hn; cases n <;> rfl
  | cons c t ih =>
    intro n hn
    obtain ⟨n, rfl⟩ : ∃ m, n = m + 1 := ⟨n - 1, by simp at hn; omega⟩
    simp only [List.mem_cons, not_or] at h
    rw [Fprintf.sprintfAux, if_neg (Ne.symm h.1), ih h.2 n (by simpa using hn)]

theorem sprintf_clean {s : Str} (h : (37 : UInt8) ∉ s) : Fprintf.sprintf s = s := sprintfAux_clean h _ (Nat.lt_succ_self _)

/-! ## Where percent signs come from -/

namespace JVal
mutual
/-- all strings in a value. -/
def strs : JVal → List Str
  | .str s => [s]
  | .arr xs => strsElems xs
  | .obj ms => strsMembers ms
  | _ => []
def strsElems : List JVal → List Str
  | [] => []
  | x :: xs => strs x ++ strsElems xs
def strsMembers : List (Str × JVal) → List Str
  | [] => []
  | (k, v) :: ms => k :: strs v ++ strsMembers ms
end

theorem strsElems_eq (xs : List JVal) : strsElems xs = xs.flatMap strs := by
  induction xs with
  | nil => rfl
  | cons x t ih => rw [strsElems, ih]; rfl
theorem strsMembers_eq (ms : List (Str × JVal)) : strsMembers ms = ms.flatMap (fun p => p.1 :: strs p.2) := by
  induction ms with
  | nil => rfl
  | cons x t ih => obtain ⟨k, v⟩ := x; rw [strsMembers, ih]; rfl

theorem no37_of_numChars {s : Str} (h : ∀ c ∈ s, isNumChar c = true) : (37 : UInt8) ∉ s := fun hc => by
  have := h _ hc; revert this; decide

theorem hexDigit_ne37 (n : Nat) (h : n < 16) : hexDigit n ≠ 37 := by
  unfold hexDigit
  split
  · intro e
    have := congrArg UInt8.toNat e
    rw [UInt8.toNat_ofNat'] at this
    simp at this; omega
  · intro e
    have := congrArg UInt8.toNat e
    rw [UInt8.toNat_ofNat'] at this
    simp at this; omega

theorem no37_escByte {b : UInt8} (h : b ≠ 37) : (37 : UInt8) ∉ escByte b := by
  unfold escByte
  split
  · simp [Ne.symm h]
  · repeat' split
    all_goals first
      | decide
      | (simp [Ne.symm h]; done)
      | (have h1 := hexDigit_ne37 (b.toNat / 16) (by have := b.toNat_lt; omega)
         have h2 := hexDigit_ne37 (b.toNat % 16) (by omega)
         simp [Ne.symm h1, Ne.symm h2])

theorem no37_encStr {s : Str} (h : (37 : UInt8) ∉ s) : (37 : UInt8) ∉ encStr s := by
  have key : ∀ r ∈ runes s, (37 : UInt8) ∉ escRune r := by
    intro r hr hc
    have hsub : (37 : UInt8) ∈ r.bytes → False := fun hb => h (by
      rw [← runes_bytes s]; exact List.mem_flatMap.2 ⟨r, hr, hb⟩)
    cases r with
    | ascii b =>
      refine no37_escByte ?_ hc
      rintro rfl
      exact hsub (by simp [Rune.bytes])
    | multi bytes =>
      simp only [escRune] at hc
      split at hc
      · revert hc; decide +kernel
      · split at hc
        · revert hc; decide +kernel
        · exact hsub hc
    | bad b => revert hc; simp only [escRune]; decide +kernel
  unfold encStr
  simp only [List.mem_append, List.mem_flatMap, not_or]
  refine ⟨⟨by decide, ?_⟩, by decide⟩
  rintro ⟨r, hr, hc⟩
  exact key r hr hc

structure Layout.No37 (L : Layout) : Prop where
  nl : ∀ d, (37 : UInt8) ∉ L.nl d
  colon : (37 : UInt8) ∉ L.colon

theorem indented_no37 : (indented [9]).No37 := by
  refine ⟨fun d h => ?_, by decide +kernel⟩
  simp only [indented, List.mem_cons, List.mem_flatten, List.mem_replicate] at h
  rcases h with h | ⟨l, ⟨_, rfl⟩, hl⟩
  · revert h; decide
  · revert hl; decide

mutual
theorem no37_enc {L : Layout} (hL : L.No37) (v : JVal) (he : v.encodable = true) (d : Nat) (h : ∀ s ∈ v.strs, (37 : UInt8) ∉ s) :
    (37 : UInt8) ∉ v.enc L d := by
  match v with
  | .null => rw [enc]; decide +kernel
  | .bool b => rw [enc]; cases b <;> decide +kernel
  | .int n => rw [enc]; exact no37_of_numChars (intStr_numChars n)
  | .float v => rw [enc]; exact no37_of_numChars (floatStr_numChars v he)
  | .str s => rw [enc]; exact no37_encStr (h s (by simp [strs]))
  | .arr [] => rw [enc]; decide +kernel
  | .arr (x :: xs) =>
    rw [encodable, encodableElems, Bool.and_eq_true] at he
    rw [strs, strsElems] at h
    rw [enc]
    simp only [List.mem_append, not_or]
    exact ⟨⟨⟨by decide, hL.nl _⟩, no37_enc hL x he.1 _ (fun s hs => h s (by simp [hs]))⟩, no37_elems hL xs he.2 d (fun s hs => h s (by simp [hs]))⟩
  | .obj [] => rw [enc]; decide +kernel
  | .obj ((k, v) :: ms) =>
    rw [encodable, encodableMembers, Bool.and_eq_true] at he
    rw [strs, strsMembers] at h
    rw [enc]
    simp only [List.mem_append, not_or]
    exact ⟨⟨⟨⟨⟨by decide, hL.nl _⟩, no37_encStr (h k (by simp))⟩, hL.colon⟩, no37_enc hL v he.1 _ (fun s hs => h s (by simp [hs]))⟩,
      no37_members hL ms he.2 d (fun s hs => h s (by simp [hs]))⟩
theorem no37_elems {L : Layout} (hL : L.No37) (xs : List JVal) (he : encodableElems xs = true) (d : Nat) (h : ∀ s ∈ strsElems xs, (37 : UInt8) ∉ s) :
    (37 : UInt8) ∉ encElems L d xs := by
  match xs with
  | [] => rw [encElems]; simp only [List.mem_append, not_or]; exact ⟨hL.nl _, by decide⟩
  | x :: xs =>
    rw [encodableElems, Bool.and_eq_true] at he
    rw [strsElems] at h
    rw [encElems]
    simp only [List.mem_append, not_or]
    exact ⟨⟨⟨by decide, hL.nl _⟩, no37_enc hL x he.1 _ (fun s hs => h s (by simp [hs]))⟩, no37_elems hL xs he.2 d (fun s hs => h s (by simp [hs]))⟩
theorem no37_members {L : Layout} (hL : L.No37) (ms : List (Str × JVal)) (he : encodableMembers ms = true) (d : Nat)
    (h : ∀ s ∈ strsMembers ms, (37 : UInt8) ∉ s) : (37 : UInt8) ∉ encMembers L d ms := by
  match ms with
  | [] => rw [encMembers]; simp only [List.mem_append, not_or]; exact ⟨hL.nl _, by decide⟩
  | (k, v) :: ms =>
    rw [encodableMembers, Bool.and_eq_true] at he
    rw [strsMembers] at h
    rw [encMembers]
    simp only [List.mem_append, not_or]
    exact ⟨⟨⟨⟨⟨by decide, hL.nl _⟩, no37_encStr (h k (by simp))⟩, hL.colon⟩, no37_enc hL v he.1 _ (fun s hs => h s (by simp [hs]))⟩,
      no37_members hL ms he.2 d (fun s hs => h s (by simp [hs]))⟩
end
end JVal

/-! ## The strings of the metrics document -/

theorem strs_mapJson {V : Type} (f : V → JVal) (m : GoMap Str V) {s : Str} (h : s ∈ (mapJson f m).strs) :
    s ∈ m.keys ∨ ∃ k v, m.get? k = some v ∧ s ∈ (f v).strs := by
  unfold mapJson at h
  rw [JVal.strs, JVal.strsMembers_eq] at h
  obtain ⟨p, hp, hs⟩ := List.mem_flatMap.1 h
  obtain ⟨k, _, hk⟩ := List.mem_filterMap.1 hp
  obtain ⟨v, hv, rfl⟩ := Option.map_eq_some_iff.1 hk
  rcases List.mem_cons.1 hs with rfl | hs
  · exact .inl (GoMap.mem_keys_of_get? hv)
  · exact .inr ⟨k, v, hv, hs⟩

/-- the strings that are the same in all documents. -/
def fixedStrs : List Str := [bs "count", bs "nanos_sum", bs "nanos_sum_squares", bs "nanos_min", bs "nanos_max", bs "timers", bs "gauges", bs "events",
  bs "event_errs", bs "count_success", bs "count_validation_error", bs "count_panic", bs "count_error", bs "count_junk", bs "interval_start",
  bs "serial_number", bs "jobs", bs "instance_id", bs "interval_duration", bs "aggregations"]

theorem fixedStrs_no37 : ∀ s ∈ fixedStrs, (37 : UInt8) ∉ s := by decide +kernel

theorem strs_timer (t : TimerAgg) : ∀ s ∈ JVal.strsMembers t.fields, s ∈ fixedStrs := by
  intro s hs
  simp only [TimerAgg.fields, JVal.strsMembers, JVal.strs, List.append_nil, List.cons_append, List.nil_append, List.mem_cons, List.not_mem_nil, or_false] at hs
  rcases hs with rfl | rfl | rfl | rfl | rfl <;> simp [fixedStrs]

theorem strs_maps (a : AggMaps) : ∀ s ∈ JVal.strsMembers a.fields, s ∈ fixedStrs ∨ s ∈ mapNames a := by
  intro s hs
  simp only [AggMaps.fields, JVal.strsMembers, List.mem_cons, List.mem_append, List.append_nil] at hs
  rcases hs with (rfl | hs) | (rfl | hs) | (rfl | hs) | (rfl | hs)
  · simp [fixedStrs]
  · rcases strs_mapJson _ _ hs with hs | ⟨k, v, _, hs⟩
    · exact .inr (by simp [mapNames, hs])
    · rw [JVal.strs] at hs; exact .inl (strs_timer v s hs)
  · simp [fixedStrs]
  · rcases strs_mapJson _ _ hs with hs | ⟨k, v, _, hs⟩
    · exact .inr (by simp [mapNames, hs])
    · simp [JVal.strs] at hs
  · simp [fixedStrs]
  · rcases strs_mapJson _ _ hs with hs | ⟨k, v, _, hs⟩
    · exact .inr (by simp [mapNames, hs])
    · simp [JVal.strs] at hs
  · simp [fixedStrs]
  · rcases strs_mapJson _ _ hs with hs | ⟨k, v, _, hs⟩
    · exact .inr (by simp [mapNames, hs])
    · simp only [ErrorCounter.toJson, JVal.strs, JVal.strsMembers, List.append_nil, List.mem_cons, List.not_mem_nil, or_false] at hs
      rw [hs]; exact .inl (by simp [fixedStrs])

theorem strsMembers_append (a b : List (Str × JVal)) : JVal.strsMembers (a ++ b) = JVal.strsMembers a ++ JVal.strsMembers b := by
  simp [JVal.strsMembers_eq]

theorem strs_job (j : JobAgg) : ∀ s ∈ j.toJson.strs, s ∈ fixedStrs ∨ s ∈ mapNames j.maps := by
  intro s hs
  unfold JobAgg.toJson at hs
  rw [JVal.strs, strsMembers_append, strsMembers_append] at hs
  rcases List.mem_append.1 hs with hs | hs
  · rcases List.mem_append.1 hs with hs | hs
    · exact strs_maps _ s hs
    · exact .inl (strs_timer _ s hs)
  · simp only [JVal.strsMembers, JVal.strs, List.append_nil, List.cons_append, List.nil_append, List.mem_cons, List.not_mem_nil, or_false] at hs
    rcases hs with rfl | rfl | rfl | rfl | rfl <;> simp [fixedStrs]

theorem strs_agg (start : Str) (a : IntAgg) : ∀ s ∈ (a.toJson start).strs, s ∈ fixedStrs ∨ s ∈ aggNames a ∨ s = start := by
  intro s hs
  unfold IntAgg.toJson at hs
  rw [JVal.strs, strsMembers_append] at hs
  rcases List.mem_append.1 hs with hs | hs
  · simp only [JVal.strsMembers, JVal.strs, List.append_nil, List.cons_append, List.nil_append, List.mem_cons, List.mem_append, List.not_mem_nil, or_false] at hs
    rcases hs with rfl | rfl | rfl | rfl | hs
    · simp [fixedStrs]
    · simp
    · simp [fixedStrs]
    · simp [fixedStrs]
    · rcases strs_mapJson _ _ hs with hs | ⟨k, v, hv, hs⟩
      · exact .inr (.inl (by simp [aggNames, hs]))
      · rcases strs_job v s hs with hs | hs
        · exact .inl hs
        · refine .inr (.inl ?_)
          simp only [aggNames, List.mem_append, List.mem_flatMap]
          exact .inl (.inr ⟨(k, v), GoMap.mem_of_get? hv, hs⟩)
  · rcases strs_maps _ s hs with hs | hs
    · exact .inl hs
    · exact .inr (.inl (by simp [aggNames, hs]))

/-! ## The text of a time -/

def timeChars : Str := bs "-T:.Z+"

theorem rfc3339_chars (ns off : Int) : ∀ c ∈ rfc3339 ns off, IsDigit c ∨ c ∈ timeChars := by
  have hp : ∀ w n, ∀ c ∈ padNat w n, IsDigit c := by
    intro w n c hc
    unfold padNat at hc
    split at hc
    · exact (padDigits_spec w n).2.1 c hc
    · exact (natStr_spec n).2.1 c hc
  have e1 : ∀ c ∈ bs "Z", c ∈ timeChars := by decide +kernel
  have e2 : ∀ c ∈ bs "-", c ∈ timeChars := by decide +kernel
  have e3 : ∀ c ∈ bs "T", c ∈ timeChars := by decide +kernel
  have e4 : ∀ c ∈ bs ":", c ∈ timeChars := by decide +kernel
  have e5 : ∀ c ∈ bs "+", c ∈ timeChars := by decide +kernel
  have hf : ∀ n, ∀ c ∈ fracText n, IsDigit c ∨ c ∈ timeChars := by
    intro n c hc
    unfold fracText at hc
    split at hc
    · simp at hc
    · rcases List.mem_cons.1 hc with h | h
      · subst h; exact .inr (by decide +kernel)
      · rw [List.mem_reverse] at h
        exact .inl ((padDigits_spec 9 n).2.1 c (List.mem_reverse.1 (List.dropWhile_sublist _ |>.subset h)))
  have hz : ∀ c ∈ zoneText off, IsDigit c ∨ c ∈ timeChars := by
    intro c hc
    unfold zoneText at hc
    split at hc
    · exact .inr (e1 c hc)
    · simp only [List.mem_append] at hc
      rcases hc with ((hc | hc) | hc) | hc
      · split at hc
        · exact .inr (e2 c hc)
        · exact .inr (e5 c hc)
      · exact .inl (hp _ _ c hc)
      · exact .inr (e4 c hc)
      · exact .inl (hp _ _ c hc)
  intro c hc
  unfold rfc3339 at hc
  simp only [List.mem_append] at hc
  rcases hc with ((((((((((((hc | hc) | hc) | hc) | hc) | hc) | hc) | hc) | hc) | hc) | hc) | hc) | hc) | hc
  · split at hc
    · exact .inr (e2 c hc)
    · simp at hc
  all_goals first
    | exact .inl (hp _ _ c hc)
    | exact .inr (e2 c hc)
    | exact .inr (e3 c hc)
    | exact .inr (e4 c hc)
    | exact hf _ c hc
    | exact hz c hc

theorem digit_facts {c : UInt8} (h : IsDigit c) : c < 0x80 ∧ c ≠ 37 := by
  obtain ⟨h1, h2⟩ := h
  rw [UInt8.le_iff_toNat_le] at h1 h2
  constructor
  · rw [UInt8.lt_iff_toNat_lt]; simp at h2 ⊢; omega
  · rintro rfl; revert h1; decide

theorem rfc3339_no37 (ns off : Int) : (37 : UInt8) ∉ rfc3339 ns off := by
  intro h
  rcases rfc3339_chars ns off _ h with h | h
  · exact (digit_facts h).2 rfl
  · revert h; decide +kernel

theorem fixUtf8_ascii {s : Str} (h : ∀ c ∈ s, c < 0x80) : fixUtf8 s = s := by
  apply fixUtf8_of_valid
  unfold validUtf8
  induction s with
  | nil => rw [runes]; rfl
  | cons c t ih =>
    have hc := h c (by simp)
    rw [runes.eq_def]
    simp only [hc, if_true, List.all_cons, Bool.true_and]
    exact ih (fun x hx => h x (by simp [hx]))

theorem fixUtf8_rfc3339 (ns off : Int) : fixUtf8 (rfc3339 ns off) = rfc3339 ns off := by
  apply fixUtf8_ascii
  intro c hc
  rcases rfc3339_chars ns off c hc with h | h
  · exact (digit_facts h).1
  · have key : ∀ c ∈ timeChars, c < 0x80 := by decide +kernel
    exact key c h

theorem fourDigits_year {ns off : Int} (h : FourDigits ns) (ho : -86400 < off ∧ off < 86400) : FourDigitYear ns off := by
  obtain ⟨y, yd, hcy, hday, hyd0, hyd1⟩ := civilYear_spec ((ns / 1000000000 + off) / 86400)
  unfold FourDigitYear clockOf
  simp only [hcy]
  have hl : yd < 366 := by split at hyd1 <;> omega
  obtain ⟨h1, h2⟩ := h
  have b1 : 0 ≤ ns / 1000000000 := by omega
  have b2 : ns / 1000000000 < 3652058 * 86400 := by omega
  have b3 : -1 ≤ (ns / 1000000000 + off) / 86400 := by omega
  have b4 : (ns / 1000000000 + off) / 86400 ≤ 3652058 := by omega
  constructor
  · by_contra hc
    omega
  · by_contra hc
    omega

/-! ## What every history leaves in the aggregations -/

theorem inI64_i64 (x : Int) : InI64 (i64 x) := by
  rw [i64_def]; unfold InI64
  constructor
  · have := Int.le_bmod (x := x) (m := 2 ^ 64) (by omega); omega
  · have := Int.bmod_lt (x := x) (m := 2 ^ 64) (by omega); omega

structure TimerInv (t : TimerAgg) : Prop where
  count : InI64 t.count
  sum : InI64 t.nanosSum
  squares : F64.NonnegLe 190 t.nanosSumSquares
  min : InI64 t.nanosMin
  max : InI64 t.nanosMax

theorem inI64_zero : InI64 0 := by unfold InI64; omega

theorem TimerInv.zero : TimerInv TimerAgg.zero := ⟨inI64_zero, inI64_zero, F64.nonnegLe_zero, inI64_zero, inI64_zero⟩

theorem TimerInv.ingest {t : TimerAgg} (h : TimerInv t) {n : Int} (hn : InI64 n) : TimerInv (t.ingest n) := by
  refine ⟨inI64_i64 _, inI64_i64 _, F64.add_absorb h.squares (F64.square_le hn), ?_, ?_⟩
  · unfold TimerAgg.ingest; simp only; split
    · exact hn
    · exact h.min
  · unfold TimerAgg.ingest; simp only; split
    · exact hn
    · exact h.max

structure MapsInv (N : Str → Prop) (a : AggMaps) : Prop where
  wf : a.Wf
  timers : ∀ k v, a.timers.get? k = some v → N k ∧ TimerInv v
  gauges : ∀ k v, a.gauges.get? k = some v → N k ∧ Finite64 v
  events : ∀ k v, a.events.get? k = some v → N k ∧ InI64 v
  errs : ∀ k v, a.eventErrs.get? k = some v → N k ∧ InI64 v.count

theorem MapsInv.init {N : Str → Prop} : MapsInv N AggMaps.init :=
  ⟨.init, by simp [AggMaps.init], by simp [AggMaps.init], by simp [AggMaps.init], by simp [AggMaps.init]⟩

theorem forall_set {V : Type} {P : Str → V → Prop} {m : GoMap Str V} (h : ∀ k v, m.get? k = some v → P k v) {k : Str} {v : V} (hv : P k v) :
    ∀ k' v', (m.set k v).get? k' = some v' → P k' v' := by
  intro k' v' he
  rw [GoMap.get?_set] at he
  split at he
  · next e => subst e; cases he; exact hv
  · exact h k' v' he

theorem count_addError (ec : ErrorCounter) (e : Option Err) : (ec.addError e).count = ec.count := by
  unfold ErrorCounter.addError
  split
  · rfl
  · split <;> rfl

theorem MapsInv.applyE {N : Str → Prop} {a : AggMaps} (h : MapsInv N a) {e : Emit} (hf : EmitFits e) (hn : ∀ s ∈ emitNames e, N s) :
    MapsInv N (a.applyE e) := by
  have hw := h.wf.applyE e
  cases e with
  | event j ev => exact ⟨hw, h.timers, h.gauges, forall_set h.events ⟨hn ev (by simp [emitNames]), inI64_i64 _⟩, h.errs⟩
  | eventErr j ev x =>
    refine ⟨hw, h.timers, h.gauges, h.events, forall_set (P := fun k (v : ErrorCounter) => N k ∧ InI64 v.count) h.errs ⟨hn ev (by simp [emitNames]), ?_⟩⟩
    unfold ErrorCounter.incrementAndAddError
    rw [count_addError]
    exact inI64_i64 _
  | timing j ev n =>
    refine ⟨hw, forall_set h.timers ⟨hn ev (by simp [emitNames]), ?_⟩, h.gauges, h.events, h.errs⟩
    apply TimerInv.ingest _ hf
    unfold GoMap.getD
    cases hg : a.timers.get? ev with
    | none => exact .zero
    | some t => exact (h.timers ev t hg).2
  | gauge j ev v => exact ⟨hw, h.timers, forall_set h.gauges ⟨hn ev (by simp [emitNames]), hf⟩, h.events, h.errs⟩
  | complete j st n => exact h

structure JobInv (N : Str → Prop) (j : JobAgg) : Prop where
  maps : MapsInv N j.maps
  timer : TimerInv j.timer
  counts : InI64 j.countSuccess ∧ InI64 j.countValidationError ∧ InI64 j.countPanic ∧ InI64 j.countError ∧ InI64 j.countJunk

theorem JobInv.init {N : Str → Prop} : JobInv N JobAgg.init :=
  ⟨.init, .zero, inI64_zero, inI64_zero, inI64_zero, inI64_zero, inI64_zero⟩

theorem JobInv.applyE {N : Str → Prop} {j : JobAgg} (h : JobInv N j) {e : Emit} (hf : EmitFits e) (hn : ∀ s ∈ emitNames e, N s) :
    JobInv N (j.applyE e) := by
  cases e with
  | complete jn st n =>
    have ht := h.timer.ingest (n := n) hf
    obtain ⟨h1, h2, h3, h4, h5⟩ := h.counts
    show JobInv N (j.ingest st n)
    unfold JobAgg.ingest
    simp only
    split
    · exact ⟨h.maps, ht, inI64_i64 _, h2, h3, h4, h5⟩
    · split
      · exact ⟨h.maps, ht, h1, inI64_i64 _, h3, h4, h5⟩
      · split
        · exact ⟨h.maps, ht, h1, h2, inI64_i64 _, h4, h5⟩
        · split
          · exact ⟨h.maps, ht, h1, h2, h3, inI64_i64 _, h5⟩
          · split
            · exact ⟨h.maps, ht, h1, h2, h3, h4, inI64_i64 _⟩
            · exact ⟨h.maps, ht, h.counts⟩
  | event _ _ => exact ⟨h.maps.applyE hf hn, h.timer, h.counts⟩
  | eventErr _ _ _ => exact ⟨h.maps.applyE hf hn, h.timer, h.counts⟩
  | timing _ _ _ => exact ⟨h.maps.applyE hf hn, h.timer, h.counts⟩
  | gauge _ _ _ => exact ⟨h.maps.applyE hf hn, h.timer, h.counts⟩

structure AggInv (N : Str → Prop) (a : IntAgg) : Prop where
  serial : InI64 a.serial
  jobsWf : a.jobs.Wf
  jobs : ∀ k v, a.jobs.get? k = some v → N k ∧ JobInv N v
  maps : MapsInv N a.maps

theorem emitNames_job (e : Emit) : jobOf e ∈ emitNames e := by cases e <;> simp [emitNames, jobOf]

theorem aggInv_aggOf {N : Str → Prop} (s : Time) (es : List Emit) (hf : ∀ e ∈ es, EmitFits e) (hn : ∀ e ∈ es, ∀ s ∈ emitNames e, N s) :
    AggInv N (aggOf s es) := by
  induction es using snocInduction with
  | nil => exact ⟨inI64_zero, .nil, by simp [aggOf, IntAgg.new], .init⟩
  | snoc l e ih =>
    have h := ih (fun x hx => hf x (by simp [hx])) (fun x hx => hn x (by simp [hx]))
    have hfe := hf e (by simp)
    have hne := hn e (by simp)
    rw [aggOf_snoc, IntAgg.apply_eq]
    refine ⟨inI64_i64 _, h.jobsWf.set _ _, forall_set h.jobs ⟨hne _ (emitNames_job e), ?_⟩, h.maps.applyE hfe hne⟩
    apply JobInv.applyE _ hfe hne
    unfold GoMap.getD
    cases hg : (aggOf s l).jobs.get? (jobOf e) with
    | none => exact .init
    | some t => exact (h.jobs _ t hg).2

theorem TimerInv.ok {t : TimerAgg} (h : TimerInv t) : TimerOk t := ⟨h.count, h.sum, ⟨h.squares.1, h.squares.2.1⟩, h.min, h.max⟩

theorem MapsInv.ok {N : Str → Prop} (hN : ∀ s, N s → IsUtf8 s) {a : AggMaps} (h : MapsInv N a) : MapsOk a :=
  ⟨⟨h.wf.timers, fun k v hk => ⟨hN k (h.timers k v hk).1, (h.timers k v hk).2.ok⟩⟩,
   ⟨h.wf.gauges, fun k v hk => ⟨hN k (h.gauges k v hk).1, (h.gauges k v hk).2⟩⟩,
   ⟨h.wf.events, fun k v hk => ⟨hN k (h.events k v hk).1, (h.events k v hk).2⟩⟩,
   ⟨h.wf.eventErrs, fun k v hk => ⟨hN k (h.errs k v hk).1, (h.errs k v hk).2⟩⟩⟩

theorem AggInv.ok {N : Str → Prop} (hN : ∀ s, N s → IsUtf8 s) {a : IntAgg} (h : AggInv N a) : AggOk a :=
  ⟨h.serial, ⟨h.jobsWf, fun k v hk => ⟨hN k (h.jobs k v hk).1, (h.jobs k v hk).2.maps.ok hN, (h.jobs k v hk).2.timer.ok, (h.jobs k v hk).2.counts⟩⟩,
   h.maps.ok hN⟩

theorem MapsInv.finite {N : Str → Prop} {a : AggMaps} (h : MapsInv N a) : MapsFinite a :=
  ⟨fun k t hk => (h.timers k t hk).2.squares.1, fun k v hk => (h.gauges k v hk).2.1⟩

theorem AggInv.finite {N : Str → Prop} {a : IntAgg} (h : AggInv N a) : AggFinite a :=
  ⟨h.maps.finite, fun k j hk => ⟨(h.jobs k j hk).2.maps.finite, (h.jobs k j hk).2.timer.squares.1⟩⟩

theorem MapsOk.finite {a : AggMaps} (h : MapsOk a) : MapsFinite a :=
  ⟨fun k t hk => (h.timers.2 k t hk).2.squares.1, fun k v hk => (h.gauges.2 k v hk).2.1⟩

theorem AggOk.finite {a : IntAgg} (h : AggOk a) : AggFinite a :=
  ⟨MapsOk.finite h.maps, fun k j hk => ⟨MapsOk.finite (h.jobs.2 k j hk).2.maps, (h.jobs.2 k j hk).2.timer.squares.1⟩⟩

/-- names satisfy `N`. -/
theorem MapsInv.names {N : Str → Prop} {a : AggMaps} (h : MapsInv N a) : ∀ s ∈ mapNames a, N s := by
  intro s hs
  simp only [mapNames, List.mem_append] at hs
  rcases hs with ((hs | hs) | hs) | hs <;> rw [← GoMap.get?_isSome_iff, Option.isSome_iff_exists] at hs <;> obtain ⟨v, hv⟩ := hs
  · exact (h.timers s v hv).1
  · exact (h.gauges s v hv).1
  · exact (h.events s v hv).1
  · exact (h.errs s v hv).1

theorem AggInv.names {N : Str → Prop} {a : IntAgg} (h : AggInv N a) : ∀ s ∈ aggNames a, N s := by
  intro s hs
  simp only [aggNames, List.mem_append, List.mem_flatMap] at hs
  rcases hs with (hs | ⟨p, hp, hs⟩) | hs
  · rw [← GoMap.get?_isSome_iff, Option.isSome_iff_exists] at hs
    obtain ⟨v, hv⟩ := hs
    exact (h.jobs s v hv).1
  · exact (h.jobs p.1 p.2 (GoMap.get?_of_mem h.jobsWf hp)).2.maps.names s hs
  · exact h.maps.names s hs

/-! ## Serving -/

theorem encodeAggs_ok (zone : Nat → Int → Int) (ms : List IntAgg)
    (h : ∀ a ∈ ms, AggFinite a ∧ FourDigitYear a.start.ns (zone a.start.loc a.start.ns)) :
    encodeAggs zone ms = .ok (ms.map (fun a => a.toJson (rfc3339 a.start.ns (zone a.start.loc a.start.ns)))) := by
  induction ms with
  | nil => rfl
  | cons a t ih =>
    obtain ⟨h1, h2⟩ := h a (by simp)
    have e1 : a.encode zone = .ok (a.toJson (rfc3339 a.start.ns (zone a.start.loc a.start.ns))) := by
      unfold IntAgg.encode
      have e : timeJSON a.start.ns (zone a.start.loc a.start.ns) = some (rfc3339 a.start.ns (zone a.start.loc a.start.ns)) := by
        unfold timeJSON; exact if_pos h2
      rw [e]
      simp only
      rw [(firstBad_none _).2 (agg_encodable h1 _)]
    rw [encodeAggs, e1, ih (fun b hb => h b (by simp [hb]))]
    rfl

/-- the document served. -/
def document (zone : Nat → Int → Int) (identifier : Str) (d : Int) (ms : List IntAgg) : JVal :=
  responseJson identifier d (ms.map (fun a => a.toJson (rfc3339 a.start.ns (zone a.start.loc a.start.ns))))

theorem document_encodable (zone : Nat → Int → Int) (identifier : Str) (d : Int) (ms : List IntAgg) (h : ∀ a ∈ ms, AggFinite a) :
    (document zone identifier d ms).encodable = true := by
  unfold document responseJson
  simp only [JVal.encodable, JVal.encodableMembers, Bool.and_true, Bool.true_and]
  rw [encodableElems_iff]
  intro x hx
  obtain ⟨a, ha, rfl⟩ := List.mem_map.1 hx
  exact agg_encodable (h a ha) _

theorem serve_ok (zone : Nat → Int → Int) (identifier : Str) (d : Int) (ms : List IntAgg)
    (h : ∀ a ∈ ms, AggFinite a ∧ FourDigitYear a.start.ns (zone a.start.loc a.start.ns)) :
    serveHTTP (bs "/health") identifier d zone ms =
      ⟨200, jsonType, Fprintf.sprintf ((document zone identifier d ms).enc (JVal.indented [9]) 0)⟩ := by
  unfold serveHTTP
  rw [if_pos rfl, encodeAggs_ok zone ms h]
  rfl

theorem serve_clean (zone : Nat → Int → Int) (identifier : Str) (d : Int) (ms : List IntAgg)
    (h : ∀ a ∈ ms, AggFinite a ∧ FourDigitYear a.start.ns (zone a.start.loc a.start.ns))
    (hp : (37 : UInt8) ∉ identifier) (hn : ∀ a ∈ ms, ∀ s ∈ aggNames a, (37 : UInt8) ∉ s) :
    serveHTTP (bs "/health") identifier d zone ms = ⟨200, jsonType, (document zone identifier d ms).enc (JVal.indented [9]) 0⟩ ∧
    readJson (serveHTTP (bs "/health") identifier d zone ms).body = some (document zone identifier d ms).view := by
  have he := document_encodable zone identifier d ms (fun a ha => (h a ha).1)
  have e : serveHTTP (bs "/health") identifier d zone ms = ⟨200, jsonType, (document zone identifier d ms).enc (JVal.indented [9]) 0⟩ := by
    rw [serve_ok zone identifier d ms h, sprintf_clean]
    apply JVal.no37_enc JVal.indented_no37 _ he
    intro s hs
    unfold document responseJson at hs
    simp only [JVal.strs, JVal.strsMembers, List.append_nil, List.cons_append, List.nil_append, List.mem_cons, JVal.strsElems_eq, List.mem_flatMap,
      List.mem_map] at hs
    rcases hs with rfl | rfl | rfl | rfl | ⟨x, ⟨a, ha, rfl⟩, hs⟩
    · decide +kernel
    · exact hp
    · decide +kernel
    · decide +kernel
    · rcases strs_agg _ a s hs with hs | hs | rfl
      · exact fixedStrs_no37 s hs
      · exact hn a ha s hs
      · exact rfc3339_no37 _ _
  refine ⟨e, ?_⟩
  rw [e]
  exact JVal.readJson_enc (JVal.indented_ok [9] (by decide)) _ he

/-! ## What the document shows -/

theorem member_of_mem_nodup {ms : List (Str × Json)} (hn : (ms.map (·.1)).Nodup) {k : Str} {x : Json} (h : (k, x) ∈ ms) : member k ms = some x := by
  induction ms with
  | nil => simp at h
  | cons p t ih =>
    obtain ⟨k', x'⟩ := p
    simp only [List.map_cons, List.nodup_cons] at hn
    rcases List.mem_cons.1 h with h | h
    · cases h; simp [member]
    · rw [member, if_neg, ih hn.2 h]
      rintro rfl
      exact hn.1 (List.mem_map.2 ⟨_, h, rfl⟩)

theorem member_none_of {ms : List (Str × Json)} {k : Str} (h : k ∉ ms.map (·.1)) : member k ms = none := by
  induction ms with
  | nil => rfl
  | cons p t ih =>
    simp only [List.map_cons, List.mem_cons, not_or] at h
    rw [member, if_neg (Ne.symm h.1), ih h.2]

theorem field_view {ms : List (Str × JVal)} (hn : ((ms.map (fun p => (fixUtf8 p.1, p.2.view))).map (·.1)).Nodup) {k : Str} {v : JVal}
    (h : (k, v) ∈ ms) (hk : fixUtf8 k = k) : (JVal.obj ms).view.field k = some v.view := by
  rw [JVal.view, JVal.viewMembers_eq]
  exact member_of_mem_nodup hn (mem_view h hk)

theorem showsMap_mapJson {V : Type} (f : V → JVal) (P : Json → V → Prop) (m : GoMap Str V) (hw : m.Wf)
    (h : ∀ k v, m.get? k = some v → IsUtf8 k ∧ P (f v).view v) : ShowsMap P (mapJson f m).view m := by
  have hkeys : ∀ k ∈ sortStrs m.keys, ∃ v, m.get? k = some v := by
    intro k hk
    have := (sortStrs_perm m.keys).mem_iff.1 hk
    rw [← GoMap.get?_isSome_iff, Option.isSome_iff_exists] at this
    exact this
  have hnames : ∀ ks : List Str, (∀ k ∈ ks, ∃ v, m.get? k = some v) →
      ((ks.filterMap (fun k => (m.get? k).map (fun v => (k, f v)))).map (fun p => (fixUtf8 p.1, p.2.view))).map (·.1) = ks := by
    intro ks hks
    induction ks with
    | nil => rfl
    | cons k t ih =>
      obtain ⟨v, hv⟩ := hks k (by simp)
      have := ih (fun k hk => hks k (by simp [hk]))
      simp only [List.filterMap_cons, hv, Option.map_some, List.map_cons]
      rw [this, fixUtf8_of_utf8 (h k v hv).1]
  unfold mapJson
  rw [JVal.view, JVal.viewMembers_eq]
  refine ⟨_, rfl, ?_, ?_⟩
  · rw [hnames _ hkeys]
    exact (sortStrs_perm m.keys).nodup_iff.2 hw
  · intro k
    cases hk : m.get? k with
    | none =>
      refine .inl ⟨rfl, member_none_of ?_⟩
      rw [hnames _ hkeys]
      intro hc
      obtain ⟨v, hv⟩ := hkeys k hc
      rw [hk] at hv; cases hv
    | some v =>
      obtain ⟨h1, h2⟩ := h k v hk
      refine .inr ⟨v, (f v).view, rfl, ?_, h2⟩
      apply member_of_mem_nodup
      · rw [hnames _ hkeys]
        exact (sortStrs_perm m.keys).nodup_iff.2 hw
      · refine List.mem_map.2 ⟨(k, f v), List.mem_filterMap.2 ⟨k, (sortStrs_perm m.keys).mem_iff.2 (GoMap.mem_keys_of_get? hk), by simp [hk]⟩, ?_⟩
        simp [fixUtf8_of_utf8 h1]

theorem isFloat_view {v : F64} (h : Finite64 v) : IsFloat (JVal.float v).view v := ⟨decVal v, rfl, decVal_roundtrip v h.1 h.2⟩

theorem showsTimer_fields {t : TimerAgg} (ht : TimerOk t) {ms : List (Str × JVal)} (hsub : ∀ p ∈ t.fields, p ∈ ms)
    (hn : ((ms.map (fun p => (fixUtf8 p.1, p.2.view))).map (·.1)).Nodup) : ShowsTimer (JVal.obj ms).view t := by
  have F := fix_names
  refine ⟨?_, ?_, ⟨_, ?_, isFloat_view ht.squares⟩, ?_, ?_⟩
  · exact field_view hn (hsub (bs "count", .int t.count) (by simp [TimerAgg.fields])) (by simp only [F])
  · exact field_view hn (hsub (bs "nanos_sum", .int t.nanosSum) (by simp [TimerAgg.fields])) (by simp only [F])
  · exact field_view hn (hsub (bs "nanos_sum_squares", .float t.nanosSumSquares) (by simp [TimerAgg.fields])) (by simp only [F])
  · exact field_view hn (hsub (bs "nanos_min", .int t.nanosMin) (by simp [TimerAgg.fields])) (by simp only [F])
  · exact field_view hn (hsub (bs "nanos_max", .int t.nanosMax) (by simp [TimerAgg.fields])) (by simp only [F])

theorem timer_nodup (t : TimerAgg) : ((t.fields.map (fun p => (fixUtf8 p.1, p.2.view))).map (·.1)).Nodup := by
  rw [List.map_map]
  have F := fix_names
  simp only [TimerAgg.fields, List.map_cons, List.map_nil, Function.comp, F]
  decide +kernel

theorem showsMaps_fields {a : AggMaps} (ha : MapsOk a) {ms : List (Str × JVal)} (hsub : ∀ p ∈ a.fields, p ∈ ms)
    (hn : ((ms.map (fun p => (fixUtf8 p.1, p.2.view))).map (·.1)).Nodup) : ShowsMaps (JVal.obj ms).view a := by
  have F := fix_names
  refine ⟨⟨_, ?_, showsMap_mapJson (fun t => .obj t.fields) _ _ ha.timers.1 (fun k v hk => ⟨(ha.timers.2 k v hk).1,
      showsTimer_fields (ha.timers.2 k v hk).2 (fun p hp => hp) (timer_nodup v)⟩)⟩,
    ⟨_, ?_, showsMap_mapJson .float _ _ ha.gauges.1 (fun k v hk => ⟨(ha.gauges.2 k v hk).1, isFloat_view (ha.gauges.2 k v hk).2⟩)⟩,
    ⟨_, ?_, showsMap_mapJson .int _ _ ha.events.1 (fun k v hk => ⟨(ha.events.2 k v hk).1, rfl⟩)⟩,
    ⟨_, ?_, showsMap_mapJson ErrorCounter.toJson _ _ ha.errs.1 (fun k v hk => ⟨(ha.errs.2 k v hk).1, ?_⟩)⟩⟩
  · exact field_view hn (hsub (bs "timers", mapJson (fun t => .obj t.fields) a.timers) (by simp [AggMaps.fields])) (by simp only [F])
  · exact field_view hn (hsub (bs "gauges", mapJson .float a.gauges) (by simp [AggMaps.fields])) (by simp only [F])
  · exact field_view hn (hsub (bs "events", mapJson .int a.events) (by simp [AggMaps.fields])) (by simp only [F])
  · exact field_view hn (hsub (bs "event_errs", mapJson ErrorCounter.toJson a.eventErrs) (by simp [AggMaps.fields])) (by simp only [F])
  · unfold ErrorCounter.toJson
    exact field_view (by simp) (List.mem_singleton.2 rfl) (by simp only [F])

theorem showsJob_toJson {j : JobAgg} (hj : JobOk j) : ShowsJob j.toJson.view j := by
  have hn := job_nodup j _ rfl
  unfold JobAgg.toJson
  generalize hms : (j.maps.fields ++ j.timer.fields ++ _ : List (Str × JVal)) = ms at hn ⊢
  have F := fix_names
  refine ⟨showsMaps_fields hj.maps (fun p hp => by rw [← hms]; simp [hp]) hn, showsTimer_fields hj.timer (fun p hp => by rw [← hms]; simp [hp]) hn,
    ?_, ?_, ?_, ?_, ?_⟩
  · exact field_view (v := .int j.countSuccess) hn (by rw [← hms]; simp) (by simp only [F])
  · exact field_view (v := .int j.countValidationError) hn (by rw [← hms]; simp) (by simp only [F])
  · exact field_view (v := .int j.countPanic) hn (by rw [← hms]; simp) (by simp only [F])
  · exact field_view (v := .int j.countError) hn (by rw [← hms]; simp) (by simp only [F])
  · exact field_view (v := .int j.countJunk) hn (by rw [← hms]; simp) (by simp only [F])

theorem showsAgg_toJson {a : IntAgg} (ha : AggOk a) (zone : Nat → Int → Int) (hy : FourDigitYear a.start.ns (zone a.start.loc a.start.ns))
    (hz : ZonesOk zone) : ShowsAgg zone (a.toJson (rfc3339 a.start.ns (zone a.start.loc a.start.ns))).view a := by
  have hn := agg_nodup (rfc3339 a.start.ns (zone a.start.loc a.start.ns)) a _ rfl
  obtain ⟨z1, z2, z3⟩ := hz a.start.loc a.start.ns
  unfold IntAgg.toJson
  generalize hms : ([(bs "interval_start", JVal.str _), _, _] ++ a.maps.fields : List (Str × JVal)) = ms at hn ⊢
  have F := fix_names
  refine ⟨⟨rfc3339 a.start.ns (zone a.start.loc a.start.ns), ?_, readTime_rfc3339 _ _ hy z3 ⟨z1, z2⟩⟩, ?_,
    ⟨_, ?_, showsMap_mapJson JobAgg.toJson _ _ ha.jobs.1 (fun k v hk => ⟨(ha.jobs.2 k v hk).1, showsJob_toJson (ha.jobs.2 k v hk).2⟩)⟩,
    showsMaps_fields ha.maps (fun p hp => by rw [← hms]; simp [hp]) hn⟩
  · rw [field_view (k := bs "interval_start") (v := .str (rfc3339 a.start.ns (zone a.start.loc a.start.ns))) hn (by rw [← hms]; simp) (by simp only [F])]
    rw [JVal.view, fixUtf8_rfc3339]
  · exact field_view (v := .int a.serial) hn (by rw [← hms]; simp) (by simp only [F])
  · exact field_view (v := mapJson JobAgg.toJson a.jobs) hn (by rw [← hms]; simp) (by simp only [F])

theorem showsMetrics_document {ms : List IntAgg} (zone : Nat → Int → Int) {identifier : Str} (d : Int) (hi : IsUtf8 identifier)
    (hok : ∀ a ∈ ms, AggOk a ∧ FourDigitYear a.start.ns (zone a.start.loc a.start.ns)) (hz : ZonesOk zone) :
    ShowsMetrics zone (document zone identifier d ms).view identifier d ms := by
  have F := fix_names
  unfold document responseJson
  refine ⟨?_, ?_, (ms.map (fun a => a.toJson (rfc3339 a.start.ns (zone a.start.loc a.start.ns)))).map JVal.view, ?_, ?_⟩
  · rw [field_view (k := bs "instance_id") (v := .str identifier) _ (by simp) (by simp only [F])]
    · rw [JVal.view, fixUtf8_of_utf8 hi]
    · simp only [List.map_cons, List.map_nil, F]; decide +kernel
  · refine field_view (v := .int d) ?_ (by simp) (by simp only [F])
    simp only [List.map_cons, List.map_nil, F]; decide +kernel
  · rw [field_view (k := bs "aggregations") (v := .arr (ms.map (fun a => a.toJson (rfc3339 a.start.ns (zone a.start.loc a.start.ns))))) _ (by simp) (by simp only [F])]
    · rw [JVal.view, JVal.viewElems_eq]
    · simp only [List.map_cons, List.map_nil, F]; decide +kernel
  · rw [List.map_map]
    induction ms with
    | nil => exact .nil
    | cons a t ih =>
      refine .cons ?_ (ih (fun b hb => hok b (by simp [hb])))
      exact showsAgg_toJson (hok a (by simp)).1 zone (hok a (by simp)).2 hz

/-! ## What healthd decodes -/

theorem inZone_locOf {lo : Int → Int} {off : Int} {fresh : Nat} {t : Time} (h : t.loc = locOf lo fresh (decide (off = 0)) t.ns off) : InZone lo off t := by
  intro loc hl
  rw [h]
  unfold zoneId at hl
  unfold locOf
  simp only [decide_eq_true_eq]
  split
  · next h1 => rw [if_pos h1] at hl; exact Option.some.inj hl
  · next h1 =>
    rw [if_neg h1] at hl
    split
    · next h2 => rw [if_pos h2.symm] at hl; exact Option.some.inj hl
    · next h2 =>
      rw [if_neg (fun e => h2 e.symm)] at hl
      split
      · next h3 =>
        rw [if_pos ⟨Int.dvd_of_emod_eq_zero h3.1, h3.2⟩] at hl
        have := Option.some.inj hl
        omega
      · next h3 =>
        rw [if_neg (fun e => h3 ⟨Int.emod_eq_zero_of_dvd e.1, e.2⟩)] at hl
        cases hl

theorem escRune_ascii {s : Str} (h : ∀ c ∈ s, c < 0x80 ∧ JVal.escByte c = [c]) : (runes s).flatMap JVal.escRune = s := by
  induction s with
  | nil => rw [runes]; rfl
  | cons c t ih =>
    have hc := h c (by simp)
    rw [runes.eq_def]
    simp only
    rw [if_pos hc.1, List.flatMap_cons, ih (fun x hx => h x (by simp [hx]))]
    simp only [JVal.escRune, hc.2, List.singleton_append]

theorem escRune_rfc3339 (ns off : Int) : (runes (rfc3339 ns off)).flatMap JVal.escRune = rfc3339 ns off := by
  apply escRune_ascii
  intro c hc
  rcases rfc3339_chars ns off c hc with h | h
  · refine ⟨(digit_facts h).1, ?_⟩
    have key : ∀ n : Fin 256, IsDigit (UInt8.ofNat n) → JVal.escByte (UInt8.ofNat n) = [UInt8.ofNat n] := by unfold IsDigit; decide +kernel
    have := key ⟨c.toNat, c.toNat_lt⟩
    simpa using this (by simpa using h)
  · have key : ∀ c ∈ timeChars, c < 0x80 ∧ JVal.escByte c = [c] := by decide +kernel
    exact key c h

theorem elems_spec {ms : List IntAgg} (zone : Nat → Int → Int) (lo : Int → Int)
    (hok : ∀ a ∈ ms, AggOk a ∧ FourDigitYear a.start.ns (zone a.start.loc a.start.ns)) (hz : ZonesOk zone) (fresh : Nat) :
    ∃ rs, decElems lo fresh [] ((ms.map (fun a => a.toJson (rfc3339 a.start.ns (zone a.start.loc a.start.ns)))).map JVal.raw) = some ⟨rs, []⟩ ∧
      List.Forall₂ (fun r a => ∃ b, r.map Interval.view = some ⟨b, false⟩ ∧ AggAgrees a b ∧ InZone lo (zone a.start.loc a.start.ns) b.start) rs ms := by
  induction ms generalizing fresh with
  | nil => exact ⟨[], rfl, .nil⟩
  | cons a t ih =>
    obtain ⟨rs, h1, h2⟩ := ih (fun b hb => hok b (by simp [hb])) (fresh + 1)
    obtain ⟨z1, z2, z3⟩ := hz a.start.loc a.start.ns
    obtain ⟨b, hb, hnil, hs, hl⟩ := report_spec (hok a (by simp)).1 (readTime_rfc3339 _ _ (hok a (by simp)).2 z3 ⟨z1, z2⟩) (escRune_rfc3339 _ _) (rfc3339_last _ _) lo fresh
    refine ⟨some b :: rs, ?_, .cons ⟨b.view.agg, ?_, hs, inZone_locOf (by rw [hs.start]; exact hl)⟩ h2⟩
    · rw [List.map_cons, List.map_cons, decElems]
      have e : decPtr (decStruct (intervalFields lo fresh)) Interval.zero (([] : List (Option Interval)).head?.getD none)
          (a.toJson (rfc3339 a.start.ns (zone a.start.loc a.start.ns))).raw = some (some b) := by
        unfold IntAgg.toJson at hb ⊢
        rw [List.head?_nil, Option.getD_none, decPtr_obj, hb]; rfl
      rw [e, Option.bind_some, List.tail_nil, h1]
      rfl
    · rw [Option.map_some, ← hnil]

theorem answerFields_names (lo : Int → Int) (fresh : Nat) : (answerFields lo fresh).map (·.1) = [bs "instance_id", bs "interval_duration", bs "aggregations"] := rfl

theorem document_depth (zone : Nat → Int → Int) (identifier : Str) (d : Int) (ms : List IntAgg) : (document zone identifier d ms).raw.depth ≤ 10000 := by
  refine le_trans (b := 6 + 1) ?_ (by norm_num)
  unfold document responseJson
  apply depth_obj
  intro p hp
  simp only [List.mem_cons, List.not_mem_nil, or_false] at hp
  rcases hp with rfl | rfl | rfl
  · exact depth_str _ _
  · exact depth_int _ _
  · refine depth_arr _ (fun x hx => ?_)
    obtain ⟨a, _, rfl⟩ := List.mem_map.1 hx
    exact depth_agg _ _

theorem unmarshal_document {ms : List IntAgg} (zone : Nat → Int → Int) {identifier : Str} {d : Int} (hi : IsUtf8 identifier) (hd : InI64 d)
    (hok : ∀ a ∈ ms, AggOk a ∧ FourDigitYear a.start.ns (zone a.start.loc a.start.ns)) (hz : ZonesOk zone) (lo : Int → Int) (fresh : Nat) :
    ∃ rs, (decStruct (answerFields lo fresh) Answer.zero (document zone identifier d ms).raw).map Answer.view = some ⟨identifier, d, rs⟩ ∧
      List.Forall₂ (fun r a => ∃ b, r = some ⟨b, false⟩ ∧ AggAgrees a b ∧ InZone lo (zone a.start.loc a.start.ns) b.start) rs ms := by
  obtain ⟨rs, h1, h2⟩ := elems_spec zone lo hok hz fresh
  refine ⟨rs.map (·.map Interval.view), ?_, List.forall₂_map_left_iff.2 h2⟩
  have hs : decSlice lo fresh ⟨[], []⟩ (JVal.arr (ms.map (fun a => a.toJson (rfc3339 a.start.ns (zone a.start.loc a.start.ns))))).raw = some ⟨rs, []⟩ := by
    rw [JVal.raw, JVal.rawElems_eq]
    revert h1
    generalize ((ms.map (fun a => a.toJson (rfc3339 a.start.ns (zone a.start.loc a.start.ns)))).map JVal.raw) = l
    intro h1
    cases l with
    | nil => rw [decElems] at h1; rw [decSlice]; exact h1
    | cons x t => exact h1
  have hdec : decStruct (answerFields lo fresh) Answer.zero (document zone identifier d ms).raw = some ⟨identifier, d, ⟨rs, []⟩⟩ := by
    unfold document responseJson
    rw [JVal.raw, JVal.rawMembers_eq, decStruct]
    simp only [List.map_cons, List.map_nil, fix_names]
    rw [foldlM_ok (t := ⟨identifier, 0, ⟨[], []⟩⟩)
        (by rw [store_at (answerFields_names lo fresh) (i := 0) (by decide +kernel) rfl]; simp [fieldOf, Answer.zero, decStr_raw _ hi]),
      foldlM_ok (t := ⟨identifier, d, ⟨[], []⟩⟩)
        (by rw [store_at (answerFields_names lo fresh) (i := 1) (by decide +kernel) rfl]; simp [fieldOf, decInt_raw _ hd]),
      foldlM_ok (t := ⟨identifier, d, ⟨rs, []⟩⟩)
        (by rw [store_at (answerFields_names lo fresh) (i := 2) (by decide +kernel) rfl]; simp [fieldOf, hs])]
    rfl
  rw [hdec]
  rfl

/-! ## Histories -/

theorem segments_mem {d : Int} (h : List (Time × AggOp)) : ∀ g ∈ segments d h, (∃ p ∈ h, g.1 = intervalStart d p.1) ∧
    ∀ e ∈ g.2, ∃ p ∈ h, p.2 = .emit e := by
  induction h using snocInduction with
  | nil => simp [segments]
  | snoc l x ih =>
    have hx : ∀ e ∈ emitsOf x.2, ∃ p ∈ l ++ [x], p.2 = .emit e := by
      intro e he
      refine ⟨x, by simp, ?_⟩
      cases hx : x.2 with
      | emit e' => rw [hx] at he; simp [emitsOf] at he; rw [he]
      | tick => rw [hx] at he; simp [emitsOf] at he
      | read => rw [hx] at he; simp [emitsOf] at he
    have ih' : ∀ g ∈ segments d l, (∃ p ∈ l ++ [x], g.1 = intervalStart d p.1) ∧ ∀ e ∈ g.2, ∃ p ∈ l ++ [x], p.2 = .emit e := by
      intro g hg
      obtain ⟨⟨p, hp, he⟩, h2⟩ := ih g hg
      exact ⟨⟨p, by simp [hp], he⟩, fun e he => by obtain ⟨p, hp, h⟩ := h2 e he; exact ⟨p, by simp [hp], h⟩⟩
    rw [segments_snoc]
    unfold addToSegments
    intro g hg
    split at hg
    · next s es hl =>
      have hmem := List.mem_of_getLast? hl
      split at hg
      · next he =>
        rcases List.mem_append.1 hg with hg | hg
        · exact ih' g (List.dropLast_subset _ hg)
        · simp only [List.mem_singleton] at hg
          subst hg
          refine ⟨(ih' _ hmem).1, ?_⟩
          intro e hee
          rcases List.mem_append.1 hee with hee | hee
          · exact (ih' _ hmem).2 e hee
          · exact hx e hee
      · rcases List.mem_append.1 hg with hg | hg
        · exact ih' g hg
        · simp only [List.mem_singleton] at hg
          subst hg
          exact ⟨⟨x, by simp, rfl⟩, hx⟩
    · simp only [List.mem_singleton] at hg
      subst hg
      exact ⟨⟨x, by simp, rfl⟩, hx⟩

theorem fourDigits_intervalStart {d : Int} (hd : 0 < d) {t : Time} (h : FourDigits t.ns) : FourDigits (intervalStart d t).ns := by
  obtain ⟨h1, h2⟩ := h
  unfold intervalStart FourDigits
  have h3 := Int.mul_ediv_self_le (x := t.ns) (k := d) (by omega)
  have h4 : 0 ≤ t.ns / d := Int.ediv_nonneg h1 hd.le
  have h5 : 0 ≤ d * (t.ns / d) := Int.mul_nonneg hd.le h4
  simp only
  omega

/-- everything that a history leaves in the metrics. -/
theorem metrics_inv {N : Str → Prop} {d r : Int} (hd : 0 < d) (hr : d ≤ r) (h : List (Time × AggOp)) (now : Time)
    (hf : ∀ t e, (t, AggOp.emit e) ∈ h → EmitFits e ∧ ∀ s ∈ emitNames e, N s) (ht : ∀ p ∈ h ++ [(now, .read)], FourDigits p.1.ns) :
    ∃ ms, getMetrics d r h now = some ms ∧ ∀ a ∈ ms, AggInv N a ∧ FourDigits a.start.ns := by
  refine ⟨_, getMetrics_eq hd hr h now, ?_⟩
  intro a ha
  obtain ⟨g, hg, rfl⟩ := List.mem_map.1 ha
  obtain ⟨⟨p, hp, he⟩, h2⟩ := segments_mem _ g (mem_lastN hg)
  have h3 : ∀ e ∈ g.2, EmitFits e ∧ ∀ s ∈ emitNames e, N s := by
    intro e hee
    obtain ⟨q, hq, hqe⟩ := h2 e hee
    rcases List.mem_append.1 hq with hq | hq
    · exact hf q.1 e (by rw [← hqe]; exact hq)
    · simp only [List.mem_singleton] at hq; subst hq; cases hqe
  unfold aggOfSeg
  refine ⟨aggInv_aggOf _ _ (fun e hee => (h3 e hee).1) (fun e hee => (h3 e hee).2), ?_⟩
  rw [aggOf_start, he]
  exact fourDigits_intervalStart hd (ht p hp)
