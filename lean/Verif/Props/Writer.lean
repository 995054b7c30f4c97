import Verif.Lemmas.Sort
import Verif.Lemmas.Json
import Verif.Lemmas.TimeText
import Verif.Lemmas.Utf8
/-!
# Log records (C36, C37, C38)
-/
open Spec

/-! ## C37: durations -/

theorem cut_space_intStr (n : Int) (u : Str) : cut 32 (intStr n ++ 32 :: u) = some (intStr n, u) := by
  apply cut_append
  intro h
  rw [intStr_sign] at h
  rcases List.mem_append.1 h with h | h
  · cases hd : decide (n < 0) <;> simp [signStr, hd] at h
  · exact (isDigit_ne ((natStr_spec _).2.1 _ h)).2.2.2.2.2 rfl

/-- C37: the duration in a log line is the true one truncated to the unit shown. -/
theorem C37_duration (nanos : Int) : ShowsDuration (nanosText nanos) nanos := by
  have e1 : bs " ms" = 32 :: bs "ms" := by decide +kernel
  have e2 : bs " μs" = 32 :: bs "μs" := by decide +kernel
  have e3 : bs " ns" = 32 :: bs "ns" := by decide +kernel
  have u1 : unitNanos (bs "ms") = some 1000000 := by decide +kernel
  have u2 : unitNanos (bs "μs") = some 1000 := by decide +kernel
  have u3 : unitNanos (bs "ns") = some 1 := by decide +kernel
  unfold nanosText
  rw [e1, e2, e3]
  split
  · next h =>
    have ht : Int.tdiv nanos 1000000 = nanos / 1000000 := Int.tdiv_eq_ediv_of_nonneg (by omega)
    refine ⟨_, _, _, _, cut_space_intStr _ _, intStr_parse _, u1, ?_, ?_, ?_, ?_⟩ <;> (try rw [ht]) <;> omega
  · split
    · next h1 h2 =>
      have ht : Int.tdiv nanos 1000 = nanos / 1000 := Int.tdiv_eq_ediv_of_nonneg (by omega)
      refine ⟨_, _, _, _, cut_space_intStr _ _, intStr_parse _, u2, ?_, ?_, ?_, ?_⟩ <;> (try rw [ht]) <;> omega
    · next h1 h2 =>
      refine ⟨_, _, _, _, cut_space_intStr _ _, intStr_parse _, u3, ?_, ?_, ?_, ?_⟩ <;> omega

example : nanosText 1999999 = bs "1999 μs" ∧ nanosText 2000000 = bs "2000 μs" ∧ nanosText 2999999 = bs "2 ms" ∧ nanosText (-5) = bs "-5 ns" ∧
  nanosText 2000 = bs "2000 ns" := by decide +kernel

/-! ## C36: log lines -/

theorem readUnsigned_sciStr (m : Nat) (d : ℤ) : readUnsigned (sciStr m d) = some ((m : ℚ) / (10:ℚ) ^ d) := by
  apply readUnsigned_sci
  · split
    · obtain ⟨g1, g2, _⟩ := padDigits_spec 2 (((natStr m).length : ℤ) - 1 - d).natAbs
      exact (isDigits_iff _).2 ⟨by intro h; rw [h] at g1; simp at g1, g2⟩
    · obtain ⟨g1, g2, _⟩ := natStr_spec (((natStr m).length : ℤ) - 1 - d).natAbs
      exact (isDigits_iff _).2 ⟨g1, g2⟩
  · split
    · next h =>
      obtain ⟨_, _, g3⟩ := padDigits_spec 2 (((natStr m).length : ℤ) - 1 - d).natAbs
      rw [g3]; exact Nat.mod_eq_of_lt (by omega)
    · exact (natStr_spec _).2.2.1

theorem sciStr_head (m : Nat) (d : ℤ) : ∃ c t, sciStr m d = c :: t ∧ IsDigit c := by
  obtain ⟨c, t, h1, h2⟩ := natStr_head m
  refine ⟨c, (sciStr m d).tail, ?_, h2⟩
  unfold sciStr
  simp only [h1, List.take_succ_cons, List.take_zero, List.cons_append, List.nil_append, List.append_assoc, List.tail_cons]

theorem readNum_fmtG (v : F64) (hv : v.isFinite = true) : readNum (fmtG v) = some (decVal v) := by
  cases v with
  | nan => simp [F64.isFinite] at hv
  | inf s => simp [F64.isFinite] at hv
  | negZero => decide +kernel
  | fin q =>
    unfold fmtG decVal
    simp only
    split
    · decide +kernel
    · split
      · rw [readNum_sign _ _ (sciStr_head _ _) _ (readUnsigned_sciStr _ _)]
        simp only [decide_eq_true_eq]
      · rw [readNum_sign _ _ (decStr_head _ _) _ (by rw [readUnsigned_plain (decStr_chars _ _), readMantissa_decStr])]
        simp only [decide_eq_true_eq]

theorem fmtG_shows (v : F64) (hval : v.Valid) : ShowsFloat (fmtG v) v := by
  cases v with
  | nan => rfl
  | inf s => rfl
  | negZero => exact ⟨_, readNum_fmtG .negZero rfl, decVal_roundtrip .negZero rfl hval⟩
  | fin q => exact ⟨_, readNum_fmtG (.fin q) rfl, decVal_roundtrip (.fin q) rfl hval⟩

/-- the entries of a map, sorted. -/
def sortedPairs (m : GoMap Str Str) : List (Str × Str) := (sortStrs m.keys).map (fun k => (k, (m.get? k).getD []))

theorem map_keys_get {V : Type} {m : GoMap Str V} (hw : m.Wf) (d : V) : m.keys.map (fun k => (k, (m.get? k).getD d)) = m := by
  unfold GoMap.keys
  rw [List.map_map]
  conv_rhs => rw [← List.map_id m]
  apply List.map_congr_left
  intro p hp
  obtain ⟨k, v⟩ := p
  simp [GoMap.get?_of_mem hw hp]

theorem sortedPairs_inKeyOrder {m : GoMap Str Str} (hw : m.Wf) : InKeyOrder m (sortedPairs m) := by
  constructor
  · have := (sortStrs_perm m.keys).map (fun k => (k, (m.get? k).getD []))
    rwa [map_keys_get hw] at this
  · unfold sortedPairs
    rw [List.pairwise_map]
    exact sortStrs_strict hw

theorem pairsText_eq (get : Str → Str) (ks : List Str) : pairsText get ks = [32].intercalate (ks.map (fun k => k ++ [58] ++ get k)) := by
  induction ks with
  | nil => rfl
  | cons k t ih =>
    cases t with
    | nil => simp [pairsText]
    | cons k' t' =>
      rw [pairsText, ih]
      simp [List.intercalate]

theorem kvsText_lists (kvs : Option (GoMap Str Str)) (hw : ∀ m, kvs = some m → m.Wf) : ListsKvs (kvsText kvs) kvs := by
  cases kvs with
  | none => rfl
  | some m =>
    refine ⟨sortedPairs m, sortedPairs_inKeyOrder (hw m rfl), ?_⟩
    unfold kvsText
    simp only
    rw [pairsText_eq]
    unfold sortedPairs
    rw [List.map_map]
    rfl

/-- a float64 argument is a float64. -/
def PayloadValid : Payload → Prop
  | .gauge _ v => v.Valid
  | _ => True

theorem middle_says {p : Payload} (hp : PayloadValid p) {mid : Str} (h : WriterSink.middle p = some mid) : Says mid p := by
  cases p with
  | event e => simp only [WriterSink.middle, Option.some.injEq] at h; exact h.symm
  | eventErr e err =>
    simp only [WriterSink.middle, Option.map_eq_some_iff] at h
    obtain ⟨m, h1, h2⟩ := h
    exact ⟨m, h1, h2.symm⟩
  | timing e n => simp only [WriterSink.middle, Option.some.injEq] at h; exact ⟨_, C37_duration n, h.symm⟩
  | gauge e v => simp only [WriterSink.middle, Option.some.injEq] at h; exact ⟨_, fmtG_shows v hp, h.symm⟩
  | complete st n => simp only [WriterSink.middle, Option.some.injEq] at h; exact ⟨_, C37_duration n, h.symm⟩

/-- C36: an emission makes exactly one `Write`, of the time, the job, what happened and all key/values in increasing order of the keys. -/
theorem C36_line (ns : Int) (job : Str) (p : Payload) (kvs : Option (GoMap Str Str)) (hp : PayloadValid p)
    (hw : ∀ m, kvs = some m → m.Wf) (hy : FourDigitYear ns 0) (writes : List Str) (h : WriterSink.emit ns job p kvs = some writes) :
    ∃ ts mid tail, writes = [bs "[" ++ ts ++ bs "]: job:" ++ job ++ mid ++ tail ++ bs "\n"] ∧ readTime ts = some (ns, 0) ∧
      Says mid p ∧ ListsKvs tail kvs := by
  unfold WriterSink.emit at h
  obtain ⟨mid, h1, h2⟩ := Option.map_eq_some_iff.1 h
  exact ⟨timestamp ns, mid, kvsText kvs, h2.symm, readTime_rfc3339 ns 0 hy (by omega) (by omega), middle_says hp h1, kvsText_lists kvs hw⟩

/-- C36: the record does not depend on the iteration order of the map. -/
theorem C36_order_independent (ns : Int) (job : Str) (p : Payload) (m m' : GoMap Str Str) (hw : m.Wf) (h : m.Perm m') :
    WriterSink.emit ns job p (some m) = WriterSink.emit ns job p (some m') ∧
    JsonWriterSink.emit ns job p (some m) = JsonWriterSink.emit ns job p (some m') := by
  have hk : sortStrs m.keys = sortStrs m'.keys := sortStrs_congr (h.map _)
  have hg : ∀ k, m.get? k = m'.get? k := fun k => GoMap.get?_perm hw h k
  constructor
  · unfold WriterSink.emit kvsText
    simp only [hk, hg]
  · unfold JsonWriterSink.emit JsonWriterSink.record JsonWriterSink.kvsJson
    simp only [hk, hg]

/-- C36: the call panics exactly for an error whose `Error()` panics (nil, or a wrapped nil). -/
theorem C36_panics (ns : Int) (job : Str) (p : Payload) (kvs : Option (GoMap Str Str)) :
    WriterSink.emit ns job p kvs = none ↔ ∃ e err, p = .eventErr e err ∧ err.message = none := by
  unfold WriterSink.emit
  rw [Option.map_eq_none_iff]
  cases p with
  | eventErr e err =>
    simp only [WriterSink.middle, Option.map_eq_none_iff]
    constructor
    · intro h; exact ⟨e, err, rfl, h⟩
    · rintro ⟨_, _, h1, h2⟩
      simp only [Payload.eventErr.injEq] at h1
      rw [h1.2]; exact h2
  | _ => simp [WriterSink.middle]

/-! ### One line -/

theorem no10_natStr (n : Nat) : (10 : UInt8) ∉ natStr n := fun h => (isDigit_ne ((natStr_spec n).2.1 _ h)).2.2.1 rfl
theorem no10_padDigits (w n : Nat) : (10 : UInt8) ∉ padDigits w n := fun h => (isDigit_ne ((padDigits_spec w n).2.1 _ h)).2.2.1 rfl
theorem no10_padNat (w n : Nat) : (10 : UInt8) ∉ padNat w n := by
  unfold padNat; split
  · exact no10_padDigits _ _
  · exact no10_natStr _
theorem no10_intStr (n : Int) : (10 : UInt8) ∉ intStr n := fun h => (intStr_clean n _ h).1 rfl
theorem no10_fmtShortest (v : F64) : (10 : UInt8) ∉ fmtShortest v := fun h => (fmtShortest_clean v _ h).1 rfl

theorem no10_of_numChars {s : Str} (h : ∀ c ∈ s, isNumChar c = true) : (10 : UInt8) ∉ s := fun hc => by
  have := h _ hc; revert this; decide

theorem no10_sciStr (m : Nat) (d : ℤ) : (10 : UInt8) ∉ sciStr m d := by
  intro h
  unfold sciStr at h
  simp only [List.mem_append] at h
  rcases h with (((h | h) | h) | h) | h
  · exact no10_natStr m (List.mem_of_mem_take h)
  · split at h
    · simp at h
    · rcases List.mem_cons.1 h with h | h
      · revert h; decide
      · exact no10_natStr m (List.mem_of_mem_drop h)
  · revert h; decide
  · split at h <;> (revert h; decide)
  · split at h
    · exact no10_padDigits _ _ h
    · exact no10_natStr _ h

theorem no10_fmtG (v : F64) : (10 : UInt8) ∉ fmtG v := by
  unfold fmtG
  split
  · split
    · decide +kernel
    · intro h
      rcases List.mem_append.1 h with h | h
      · exact no10_of_numChars (signStr_numChars _) h
      · split at h
        · exact no10_sciStr _ _ h
        · exact no10_of_numChars (decStr_numChars _ _) h
  · exact no10_fmtShortest _

theorem no10_nanosText (n : Int) : (10 : UInt8) ∉ nanosText n := by
  have e1 : (10 : UInt8) ∉ bs " ms" := by decide +kernel
  have e2 : (10 : UInt8) ∉ bs " μs" := by decide +kernel
  have e3 : (10 : UInt8) ∉ bs " ns" := by decide +kernel
  unfold nanosText
  split
  · simp [no10_intStr, e1]
  · split
    · simp [no10_intStr, e2]
    · simp [no10_intStr, e3]

theorem no10_fracText (n : Nat) : (10 : UInt8) ∉ fracText n := by
  unfold fracText
  split
  · simp
  · intro h
    rcases List.mem_cons.1 h with h | h
    · revert h; decide
    · rw [List.mem_reverse] at h
      exact no10_padDigits 9 n (List.mem_reverse.1 (List.dropWhile_sublist _ |>.subset h))

theorem no10_zoneText (o : Int) : (10 : UInt8) ∉ zoneText o := by
  have e1 : (10 : UInt8) ∉ bs "Z" := by decide +kernel
  have e2 : (10 : UInt8) ∉ bs "-" := by decide +kernel
  have e3 : (10 : UInt8) ∉ bs "+" := by decide +kernel
  have e4 : (10 : UInt8) ∉ bs ":" := by decide +kernel
  unfold zoneText
  split
  · exact e1
  · simp only [List.mem_append, not_or]
    refine ⟨⟨⟨?_, no10_padNat _ _⟩, e4⟩, no10_padNat _ _⟩
    split
    · exact e2
    · exact e3

theorem no10_timestamp (ns : Int) : (10 : UInt8) ∉ timestamp ns := by
  have e2 : (10 : UInt8) ∉ bs "-" := by decide +kernel
  have e3 : (10 : UInt8) ∉ bs "T" := by decide +kernel
  have e4 : (10 : UInt8) ∉ bs ":" := by decide +kernel
  unfold timestamp rfc3339
  simp only [List.mem_append, not_or]
  refine ⟨⟨⟨⟨⟨⟨⟨⟨⟨⟨⟨⟨⟨?_, no10_padNat _ _⟩, e2⟩, no10_padNat _ _⟩, e2⟩, no10_padNat _ _⟩, e3⟩, no10_padNat _ _⟩, e4⟩, no10_padNat _ _⟩, e4⟩,
    no10_padNat _ _⟩, no10_fracText _⟩, no10_zoneText _⟩
  split
  · exact e2
  · simp

theorem no10_status (st : Status) : (10 : UInt8) ∉ st.str := by
  unfold Status.str
  repeat' split
  all_goals decide +kernel

theorem no10_pairsText (get : Str → Str) (ks : List Str) (h1 : ∀ k ∈ ks, (10 : UInt8) ∉ k) (h2 : ∀ k ∈ ks, (10 : UInt8) ∉ get k) :
    (10 : UInt8) ∉ pairsText get ks := by
  induction ks with
  | nil => simp [pairsText]
  | cons k t ih =>
    cases t with
    | nil => simp [pairsText, h1 k (by simp), h2 k (by simp)]
    | cons k' t' =>
      have := ih (fun x hx => h1 x (by simp [hx])) (fun x hx => h2 x (by simp [hx]))
      simp [pairsText, h1 k (by simp), h2 k (by simp), this]

/-- C36: if no string of the caller contains a newline, the record is one line: its only newline is the last byte. -/
theorem C36_one_line (ns : Int) (job : Str) (p : Payload) (kvs : Option (GoMap Str Str)) (hw : ∀ m, kvs = some m → m.Wf)
    (hn : ∀ s ∈ callerStrings job p kvs, (10 : UInt8) ∉ s) (writes : List Str) (h : WriterSink.emit ns job p kvs = some writes) :
    ∃ line, writes = [line ++ [10]] ∧ (10 : UInt8) ∉ line := by
  unfold WriterSink.emit at h
  obtain ⟨mid, h1, h2⟩ := Option.map_eq_some_iff.1 h
  have e : bs "\n" = [10] := by decide +kernel
  refine ⟨bs "[" ++ timestamp ns ++ bs "]: job:" ++ job ++ mid ++ kvsText kvs, by rw [← h2, e], ?_⟩
  have f1 : (10 : UInt8) ∉ bs "[" := by decide +kernel
  have f2 : (10 : UInt8) ∉ bs "]: job:" := by decide +kernel
  have f3 : (10 : UInt8) ∉ bs " event:" := by decide +kernel
  have f4 : (10 : UInt8) ∉ bs " time:" := by decide +kernel
  have f5 : (10 : UInt8) ∉ bs " err:" := by decide +kernel
  have f6 : (10 : UInt8) ∉ bs " gauge:" := by decide +kernel
  have f7 : (10 : UInt8) ∉ bs " status:" := by decide +kernel
  have f8 : (10 : UInt8) ∉ bs " kvs:[" := by decide +kernel
  have f9 : (10 : UInt8) ∉ bs "]" := by decide +kernel
  have hjob := hn job (by simp [callerStrings])
  have hmid : (10 : UInt8) ∉ mid := by
    cases p with
    | event e =>
      simp only [WriterSink.middle, Option.some.injEq] at h1
      have := hn e (by simp [callerStrings])
      simp [← h1, f3, this]
    | eventErr e err =>
      simp only [WriterSink.middle, Option.map_eq_some_iff] at h1
      obtain ⟨m, g1, g2⟩ := h1
      have h3 := hn e (by simp [callerStrings])
      have h4 := hn m (by simp [callerStrings, g1])
      simp [← g2, f3, f5, h3, h4]
    | timing e n =>
      simp only [WriterSink.middle, Option.some.injEq] at h1
      have := hn e (by simp [callerStrings])
      simp [← h1, f3, f4, this, no10_nanosText]
    | gauge e v =>
      simp only [WriterSink.middle, Option.some.injEq] at h1
      have := hn e (by simp [callerStrings])
      simp [← h1, f3, f6, this, no10_fmtG]
    | complete st n =>
      simp only [WriterSink.middle, Option.some.injEq] at h1
      simp [← h1, f4, f7, no10_nanosText, no10_status]
  have hkvs : (10 : UInt8) ∉ kvsText kvs := by
    cases kvs with
    | none => simp [kvsText]
    | some m =>
      have hk : ∀ k ∈ sortStrs m.keys, (10 : UInt8) ∉ k := by
        intro k hk
        have hk' := (sortStrs_perm m.keys).mem_iff.1 hk
        obtain ⟨q, hq, rfl⟩ := List.mem_map.1 hk'
        exact hn q.1 (by simp only [callerStrings, Option.getD_some, List.mem_cons, List.mem_append, List.mem_flatMap]; exact .inr (.inr ⟨q, hq, by simp⟩))
      have hv : ∀ k ∈ sortStrs m.keys, (10 : UInt8) ∉ (m.get? k).getD [] := by
        intro k _
        cases hg : m.get? k with
        | none => simp
        | some v =>
          have hq := GoMap.mem_of_get? hg
          exact hn v (by simp only [callerStrings, Option.getD_some, List.mem_cons, List.mem_append, List.mem_flatMap]; exact .inr (.inr ⟨_, hq, by simp⟩))
      simp [kvsText, f8, f9, no10_pairsText _ _ hk hv]
  simp [f1, f2, no10_timestamp, hjob, hmid, hkvs]

/-- a case that meets the hypotheses. -/
example : let ns := (62135596800 + 1425167999) * 1000000000
    FourDigitYear ns 0 ∧ PayloadValid (.gauge (bs "g") (.fin 3)) ∧ GoMap.Wf [(bs "b", bs "2"), (bs "a", bs "1")] ∧
    WriterSink.emit ns (bs "j") (.gauge (bs "g") (.fin 3)) (some [(bs "b", bs "2"), (bs "a", bs "1")]) =
      some [bs "[2015-02-28T23:59:59Z]: job:j event:g gauge:3 kvs:[a:1 b:2]\n"] := by
  refine ⟨by unfold FourDigitYear; decide +kernel, by unfold PayloadValid F64.Valid; decide +kernel, by unfold GoMap.Wf; decide +kernel, by decide +kernel⟩
example : WriterSink.emit 0 [] (.eventErr [] .nil) none = none := by decide +kernel

/-! ## C38: JSON records -/

theorem validUtf8_timestamp_chars {s : Str} (h : ∀ c ∈ s, c < 0x80) : fixUtf8 s = s := by
  apply fixUtf8_of_valid
  unfold validUtf8
  induction s with
  | nil => rw [runes]; rfl
  | cons c t ih =>
    have hc := h c (by simp)
    rw [runes.eq_def]
    simp only [hc, if_true, List.all_cons, Bool.true_and]
    exact ih (fun x hx => h x (by simp [hx]))

theorem isDigit_ascii {c : UInt8} (h : IsDigit c) : c < 0x80 := by
  have := h.2
  rw [UInt8.le_iff_toNat_le] at this
  rw [UInt8.lt_iff_toNat_lt]
  simp at this ⊢; omega

theorem ascii_padNat (w n : Nat) : ∀ c ∈ padNat w n, c < 0x80 := by
  intro c hc
  unfold padNat at hc
  split at hc
  · exact isDigit_ascii ((padDigits_spec w n).2.1 c hc)
  · exact isDigit_ascii ((natStr_spec n).2.1 c hc)

theorem ascii_timestamp (ns : Int) : ∀ c ∈ timestamp ns, c < 0x80 := by
  have e1 : ∀ c ∈ bs "Z", c < 0x80 := by decide +kernel
  have e2 : ∀ c ∈ bs "-", c < 0x80 := by decide +kernel
  have e3 : ∀ c ∈ bs "T", c < 0x80 := by decide +kernel
  have e4 : ∀ c ∈ bs ":", c < 0x80 := by decide +kernel
  have hf : ∀ n, ∀ c ∈ fracText n, c < 0x80 := by
    intro n c hc
    unfold fracText at hc
    split at hc
    · simp at hc
    · rcases List.mem_cons.1 hc with h | h
      · subst h; decide
      · rw [List.mem_reverse] at h
        exact isDigit_ascii ((padDigits_spec 9 n).2.1 c (List.mem_reverse.1 (List.dropWhile_sublist _ |>.subset h)))
  have hz : ∀ c ∈ zoneText 0, c < 0x80 := by decide +kernel
  intro c hc
  unfold timestamp rfc3339 at hc
  simp only [List.mem_append] at hc
  rcases hc with ((((((((((((hc | hc) | hc) | hc) | hc) | hc) | hc) | hc) | hc) | hc) | hc) | hc) | hc) | hc
  · split at hc
    · exact e2 c hc
    · simp at hc
  all_goals first
    | exact ascii_padNat _ _ c hc
    | exact e2 c hc
    | exact e3 c hc
    | exact e4 c hc
    | exact hf _ c hc
    | exact hz c hc

theorem fixUtf8_timestamp (ns : Int) : fixUtf8 (timestamp ns) = timestamp ns := validUtf8_timestamp_chars (ascii_timestamp ns)

theorem fixUtf8_status (st : Status) : fixUtf8 st.str = st.str := by
  unfold Status.str
  repeat' split
  all_goals decide +kernel

theorem member_map {α : Type} (ks : List α) (f : α → Str × Json) (k : Str) (a : α) (ha : a ∈ ks) (hk : (f a).1 = k)
    (hu : ∀ b ∈ ks, (f b).1 = k → (f b).2 = (f a).2) : member k (ks.map f) = some (f a).2 := by
  induction ks with
  | nil => simp at ha
  | cons b t ih =>
    rw [List.map_cons]
    rcases hb : f b with ⟨n, v⟩
    simp only [member]
    by_cases hn : n = k
    · rw [if_pos hn]
      have := hu b (by simp) (by rw [hb]; exact hn)
      rw [hb] at this
      simpa using this
    · rw [if_neg hn]
      rcases List.mem_cons.1 ha with h | h
      · subst h; rw [hb] at hk; exact absurd hk hn
      · exact ih h (fun b' hb' => hu b' (by simp [hb']))

theorem member_none {ms : List (Str × Json)} {k : Str} (h : ∀ p ∈ ms, p.1 ≠ k) : member k ms = none := by
  induction ms with
  | nil => rfl
  | cons p t ih =>
    obtain ⟨n, v⟩ := p
    simp only [member]
    rw [if_neg (h (n, v) (by simp)), ih (fun q hq => h q (by simp [hq]))]

theorem kvsJson_isKvs (kvs : Option (GoMap Str Str)) (hw : ∀ m, kvs = some m → m.Wf)
    (hv : ∀ m, kvs = some m → ∀ p ∈ m, IsUtf8 p.1 ∧ IsUtf8 p.2) : IsKvs (JsonWriterSink.kvsJson kvs).view kvs := by
  cases kvs with
  | none => rfl
  | some m =>
    have hw := hw m rfl
    have hv := hv m rfl
    unfold JsonWriterSink.kvsJson
    simp only [JVal.view, JVal.viewMembers_eq, List.map_map]
    refine ⟨_, rfl, ?_, ?_⟩
    · rw [List.length_map, (sortStrs_perm _).length_eq]; simp [GoMap.keys]
    · intro k
      have hkey : ∀ k' ∈ sortStrs m.keys, fixUtf8 k' = k' := by
        intro k' hk'
        have := (sortStrs_perm m.keys).mem_iff.1 hk'
        obtain ⟨q, hq, rfl⟩ := List.mem_map.1 this
        exact fixUtf8_of_utf8 (hv q hq).1
      cases hg : m.get? k with
      | none =>
        have hnot : k ∉ m.keys := (GoMap.get?_eq_none_iff m k).1 hg
        apply member_none
        intro p hp
        obtain ⟨k', hk', rfl⟩ := List.mem_map.1 hp
        simp only [Function.comp]
        rw [hkey k' hk']
        rintro rfl
        exact hnot ((sortStrs_perm m.keys).mem_iff.1 hk')
      | some v =>
        have hmem : k ∈ sortStrs m.keys := (sortStrs_perm m.keys).mem_iff.2 (GoMap.mem_keys_of_get? hg)
        rw [member_map _ _ k k hmem (hkey k hmem)]
        · simp only [Function.comp, hg, Option.getD_some, Option.map_some, JVal.view]
          rw [fixUtf8_of_utf8 (hv _ (GoMap.mem_of_get? hg)).2]
        · intro b hb hbk
          simp only [Function.comp] at hbk
          rw [hkey b hb] at hbk
          rw [hbk]

theorem kvsJson_encodable (kvs : Option (GoMap Str Str)) : (JsonWriterSink.kvsJson kvs).encodable = true := by
  cases kvs with
  | none => rfl
  | some m =>
    unfold JsonWriterSink.kvsJson
    simp only [JVal.encodable]
    generalize sortStrs m.keys = ks
    induction ks with
    | nil => rfl
    | cons k t ih => simp [JVal.encodableMembers, JVal.encodable, ih]

/-- C38: an emission writes one record, unless it is a gauge whose value is NaN or infinite: then it writes nothing. -/
theorem C38_writes (ns : Int) (job : Str) (p : Payload) (kvs : Option (GoMap Str Str)) :
    (∀ e v, p = .gauge e v → v.isFinite = false → JsonWriterSink.emit ns job p kvs = []) ∧
    ((∀ e v, p = .gauge e v → v.isFinite = true) → ∃ b, JsonWriterSink.emit ns job p kvs = [b]) := by
  constructor
  · rintro e v rfl hv
    simp [JsonWriterSink.emit, JsonWriterSink.record, JVal.marshal, JVal.encodable, JVal.encodableMembers, hv]
  · intro h
    have he : (JsonWriterSink.record ns job p kvs).encodable = true := by
      cases p with
      | gauge e v => simp [JsonWriterSink.record, JVal.encodable, JVal.encodableMembers, kvsJson_encodable, h e v rfl]
      | _ => simp [JsonWriterSink.record, JVal.encodable, JVal.encodableMembers, kvsJson_encodable]
    refine ⟨JVal.enc JVal.compact 0 (JsonWriterSink.record ns job p kvs), ?_⟩
    simp [JsonWriterSink.emit, JVal.marshal, he]

/-- C38: the record tells everything about the emission: job, time, event, value, status, error message and key/values. -/
theorem C38_lossless (ns : Int) (job : Str) (p : Payload) (kvs : Option (GoMap Str Str)) (hp : PayloadValid p)
    (hw : ∀ m, kvs = some m → m.Wf) (hu : ∀ s ∈ callerStrings job p kvs, IsUtf8 s) (hy : FourDigitYear ns 0)
    (b : Str) (hb : b ∈ JsonWriterSink.emit ns job p kvs) : ∃ j, readJson b = some j ∧ Tells j ns job p kvs := by
  have hm : (JsonWriterSink.record ns job p kvs).marshal = some b := by
    unfold JsonWriterSink.emit at hb
    split at hb
    · next b' h => simp at hb; rw [hb]; exact h
    · simp at hb
  refine ⟨_, JVal.readJson_marshal hm, ?_⟩
  have henc : (JsonWriterSink.record ns job p kvs).encodable = true := by
    unfold JVal.marshal at hm
    split at hm
    · next h => exact h
    · cases hm
  have hjob : fixUtf8 job = job := fixUtf8_of_utf8 (hu job (by simp [callerStrings]))
  have hkv : ∀ m, kvs = some m → ∀ q ∈ m, IsUtf8 q.1 ∧ IsUtf8 q.2 := by
    rintro m rfl q hq
    constructor
    · exact hu q.1 (by simp only [callerStrings, Option.getD_some, List.mem_cons, List.mem_append, List.mem_flatMap]; exact .inr (.inr ⟨q, hq, by simp⟩))
    · exact hu q.2 (by simp only [callerStrings, Option.getD_some, List.mem_cons, List.mem_append, List.mem_flatMap]; exact .inr (.inr ⟨q, hq, by simp⟩))
  have hkvs := kvsJson_isKvs kvs hw hkv
  have hts := readTime_rfc3339 ns 0 hy (by omega) (by omega)
  have k1 : fixUtf8 (bs "Job") = bs "Job" := by decide +kernel
  have k2 : fixUtf8 (bs "Event") = bs "Event" := by decide +kernel
  have k3 : fixUtf8 (bs "Timestamp") = bs "Timestamp" := by decide +kernel
  have k4 : fixUtf8 (bs "Kvs") = bs "Kvs" := by decide +kernel
  have k5 : fixUtf8 (bs "Err") = bs "Err" := by decide +kernel
  have k6 : fixUtf8 (bs "Nanoseconds") = bs "Nanoseconds" := by decide +kernel
  have k7 : fixUtf8 (bs "Value") = bs "Value" := by decide +kernel
  have k8 : fixUtf8 (bs "Status") = bs "Status" := by decide +kernel
  have n1 : bs "Job" ≠ bs "Event" ∧ bs "Job" ≠ bs "Timestamp" ∧ bs "Job" ≠ bs "Kvs" ∧ bs "Event" ≠ bs "Timestamp" ∧ bs "Event" ≠ bs "Kvs" ∧
      bs "Timestamp" ≠ bs "Kvs" ∧ bs "Job" ≠ bs "Err" ∧ bs "Event" ≠ bs "Err" ∧ bs "Timestamp" ≠ bs "Err" ∧ bs "Err" ≠ bs "Kvs" ∧
      bs "Job" ≠ bs "Nanoseconds" ∧ bs "Event" ≠ bs "Nanoseconds" ∧ bs "Timestamp" ≠ bs "Nanoseconds" ∧ bs "Nanoseconds" ≠ bs "Kvs" ∧
      bs "Job" ≠ bs "Value" ∧ bs "Event" ≠ bs "Value" ∧ bs "Timestamp" ≠ bs "Value" ∧ bs "Value" ≠ bs "Kvs" ∧
      bs "Job" ≠ bs "Status" ∧ bs "Status" ≠ bs "Timestamp" ∧ bs "Status" ≠ bs "Nanoseconds" ∧ bs "Status" ≠ bs "Kvs" := by decide +kernel
  cases p with
  | event e =>
    have he : fixUtf8 e = e := fixUtf8_of_utf8 (hu e (by simp [callerStrings]))
    refine ⟨?_, ⟨timestamp ns, ?_, hts⟩, ?_, ⟨_, ?_, hkvs⟩⟩ <;>
      simp [JsonWriterSink.record, JVal.view, JVal.viewMembers, Json.field, member, PayloadFields, k1, k2, k3, k4, hjob, he, fixUtf8_timestamp, n1]
  | eventErr e err =>
    have he : fixUtf8 e = e := fixUtf8_of_utf8 (hu e (by simp [callerStrings]))
    have herr : ∀ m, err.message = some m → fixUtf8 (JsonWriterSink.sprintErr err) = m := by
      intro m hm
      have hs : JsonWriterSink.sprintErr err = m := by
        cases err with
        | nil => simp [GoErr.message] at hm
        | _ => simp only [JsonWriterSink.sprintErr, hm, Option.getD_some]
      rw [hs]
      exact fixUtf8_of_utf8 (hu m (by simp [callerStrings, hm]))
    refine ⟨?_, ⟨timestamp ns, ?_, hts⟩, ⟨?_, fun m hm => ?_⟩, ⟨_, ?_, hkvs⟩⟩ <;>
      simp [JsonWriterSink.record, JVal.view, JVal.viewMembers, Json.field, member, k1, k2, k3, k4, k5, hjob, he, fixUtf8_timestamp, n1]
    exact herr m hm
  | timing e n =>
    have he : fixUtf8 e = e := fixUtf8_of_utf8 (hu e (by simp [callerStrings]))
    refine ⟨?_, ⟨timestamp ns, ?_, hts⟩, ⟨?_, ?_⟩, ⟨_, ?_, hkvs⟩⟩ <;>
      simp [JsonWriterSink.record, JVal.view, JVal.viewMembers, Json.field, member, k1, k2, k3, k4, k6, hjob, he, fixUtf8_timestamp, n1]
  | gauge e v =>
    have he : fixUtf8 e = e := fixUtf8_of_utf8 (hu e (by simp [callerStrings]))
    have hfin : v.isFinite = true := by
      simp [JsonWriterSink.record, JVal.encodable, JVal.encodableMembers] at henc
      exact henc.1
    refine ⟨?_, ⟨timestamp ns, ?_, hts⟩, ⟨?_, .num (decVal v), ?_, decVal v, rfl, decVal_roundtrip v hfin hp⟩, ⟨_, ?_, hkvs⟩⟩ <;>
      simp [JsonWriterSink.record, JVal.view, JVal.viewMembers, Json.field, member, k1, k2, k3, k4, k7, hjob, he, fixUtf8_timestamp, n1]
  | complete st n =>
    refine ⟨?_, ⟨timestamp ns, ?_, hts⟩, ⟨?_, ?_⟩, ⟨_, ?_, hkvs⟩⟩ <;>
      simp [JsonWriterSink.record, JVal.view, JVal.viewMembers, Json.field, member, k1, k3, k4, k6, k8, hjob, fixUtf8_timestamp, fixUtf8_status, n1]

/-- a case that meets the hypotheses: a quote, a newline and a non-ASCII letter in the strings. -/
example : let kvs := some [(bs "b", bs "é"), (bs "a", bs "\"\n")]
    (∀ s ∈ callerStrings (bs "j<") (.timing (bs "e") (-7)) kvs, IsUtf8 s) ∧
    JsonWriterSink.emit 0 (bs "j<") (.timing (bs "e") (-7)) kvs =
      [bs "{\"Job\":\"j\\u003c\",\"Event\":\"e\",\"Timestamp\":\"0001-01-01T00:00:00Z\",\"Nanoseconds\":-7,\"Kvs\":{\"a\":\"\\\"\\n\",\"b\":\"é\"}}"] := by
  simp only [← validUtf8_iff]
  decide +kernel
example : JsonWriterSink.emit 0 (bs "j") (.gauge (bs "e") .nan) none = [] := by decide +kernel
