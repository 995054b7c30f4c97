import Verif.Model.Json
import Verif.Spec.Json
import Verif.Lemmas.Shortest
/-!
# The JSON encoder against the JSON reader
-/
open Spec

/-! ## Numbers -/

theorem isDigit_le {c : UInt8} (h : IsDigit c) : 48 ≤ c ∧ c ≤ 57 := h

theorem isDigit_ne' {c : UInt8} (h : IsDigit c) : c ≠ 101 ∧ c ≠ 69 ∧ c ≠ 43 ∧ c ≠ 45 := by
  obtain ⟨h1, h2⟩ := h
  rw [UInt8.le_iff_toNat_le] at h1 h2
  refine ⟨?_, ?_, ?_, ?_⟩ <;> (rintro rfl; revert h1 h2; decide)

theorem isDigit_numChar {c : UInt8} (h : IsDigit c) : isNumChar c = true := by
  have : decide (48 ≤ c ∧ c ≤ 57) = true := decide_eq_true h
  simp [isNumChar, this]

theorem natStr_canonical (n : Nat) : ¬ ((natStr n).length ≥ 2 ∧ (natStr n).head? = some 48) := by
  obtain ⟨_, _, _, h4, h5⟩ := natStr_spec n
  rintro ⟨h1, h2⟩
  by_cases hn : n = 0
  · rw [h5 hn] at h1; simp at h1
  · exact h4 hn h2

theorem readMantissa_fixedStr (m prec : Nat) : readMantissa (fixedStr m prec) = some ((m : ℚ) / 10 ^ prec) := by
  obtain ⟨h1, h2, h3, _⟩ := natStr_spec (m / 10 ^ prec)
  have hdot : (46 : UInt8) ∉ natStr (m / 10 ^ prec) := fun h => (isDigit_ne (h2 _ h)).1 rfl
  have hint : intPart (fixedStr m prec) = natStr (m / 10 ^ prec) := by
    unfold intPart fixedStr
    by_cases hp : prec = 0
    · simp only [hp, if_true, List.append_nil] at hdot ⊢
      rw [cut_none hdot]
    · simp only [hp, if_false]
      rw [cut_append hdot]
  unfold readMantissa
  simp only [hint]
  rw [if_neg (natStr_canonical _), fixedStr_parse]

theorem readMantissa_decStr (m : Nat) (d : ℤ) : readMantissa (decStr m d) = some ((m : ℚ) / (10:ℚ) ^ d) := by
  unfold decStr
  split
  · next h =>
    have e : natStr (m * 10 ^ (-d).toNat) = fixedStr (m * 10 ^ (-d).toNat) 0 := by simp [fixedStr]
    rw [e, readMantissa_fixedStr]
    congr 1
    push_cast
    have e2 : (10:ℚ) ^ (-d).toNat = (10:ℚ) ^ (-d) := by rw [← zpow_natCast]; congr 1; omega
    rw [e2, zpow_neg]; field_simp
  · next h =>
    rw [readMantissa_fixedStr]
    have e2 : (10:ℚ) ^ d.toNat = (10:ℚ) ^ d := by rw [← zpow_natCast]; congr 1; omega
    rw [e2]

theorem readUnsigned_plain {s : Str} (h : ∀ c ∈ s, IsDigit c ∨ c = 46) : readUnsigned s = readMantissa s := by
  have h1 : (101 : UInt8) ∉ s := fun hc => by
    rcases h _ hc with h | h
    · exact (isDigit_ne' h).1 rfl
    · revert h; decide
  have h2 : (69 : UInt8) ∉ s := fun hc => by
    rcases h _ hc with h | h
    · exact (isDigit_ne' h).2.1 rfl
    · revert h; decide
  unfold readUnsigned
  rw [cut_none h1, cut_none h2]
  rfl

theorem readExp_sign (e : ℤ) (E : Str) (hE : isDigits E = true) (hv : digitsVal E = e.natAbs) :
    readExp ((if e < 0 then [45] else [43]) ++ E) = some e := by
  by_cases he : e < 0
  · simp only [he, if_true, List.singleton_append, readExp, hE, hv]
    congr 1; omega
  · simp only [he, if_false, List.singleton_append, readExp, hE, if_true, hv]
    congr 1; omega

theorem readUnsigned_sci (m : Nat) (d : ℤ) (E : Str) (hE : isDigits E = true) (hv : digitsVal E = (((natStr m).length : ℤ) - 1 - d).natAbs) :
    readUnsigned ((natStr m).take 1 ++ (if (natStr m).length ≤ 1 then [] else 46 :: (natStr m).drop 1) ++ [101] ++
      (if ((natStr m).length : ℤ) - 1 - d < 0 then [45] else [43]) ++ E) = some ((m : ℚ) / (10:ℚ) ^ d) := by
  obtain ⟨h1, h2, h3, _⟩ := natStr_spec m
  obtain ⟨c, t, hs⟩ : ∃ c t, natStr m = c :: t := by
    cases h : natStr m with
    | nil => exact absurd h h1
    | cons c t => exact ⟨c, t, rfl⟩
  have hc : IsDigit c := h2 c (by rw [hs]; simp)
  have ht : ∀ x ∈ t, IsDigit x := fun x hx => h2 x (by rw [hs]; simp [hx])
  have hval : (m : ℚ) = (c.toNat - 48 : ℕ) * 10 ^ t.length + digitsVal t := by
    have : digitsVal (c :: t) = digitsVal [c] * 10 ^ t.length + digitsVal t := digitsVal_append [c] t
    rw [← hs, h3, digitsVal_single] at this
    exact_mod_cast this
  rw [hs] at hv ⊢
  set e : ℤ := ((c :: t).length : ℤ) - 1 - d with he
  set mant : Str := (c :: t).take 1 ++ (if (c :: t).length ≤ 1 then [] else 46 :: (c :: t).drop 1) with hmant
  have hchars : ∀ x ∈ mant, IsDigit x ∨ x = 46 := by
    intro x hx
    rw [hmant] at hx
    rcases List.mem_append.1 hx with hx | hx
    · simp at hx; exact .inl (hx ▸ hc)
    · split at hx
      · simp at hx
      · rcases List.mem_cons.1 hx with hx | hx
        · exact .inr hx
        · exact .inl (ht x (by simpa using hx))
  have hmv : readMantissa mant = some ((m : ℚ) / 10 ^ t.length) := by
    have hcd : (46 : UInt8) ∉ [c] := by
      simp only [List.mem_singleton]; exact fun h => (isDigit_ne hc).1 h.symm
    by_cases hl : t = []
    · subst hl
      have : mant = [c] := by simp [hmant]
      rw [this]
      unfold readMantissa intPart parseUnsigned
      rw [cut_none hcd]
      have hd := (isDigits_iff [c]).2 ⟨by simp, by simpa using hc⟩
      simp only [hd, digitsVal_single]
      rw [hval]
      simp [digitsVal]
    · have : mant = [c] ++ 46 :: t := by
        have : ¬ (c :: t).length ≤ 1 := by
          cases t with
          | nil => exact absurd rfl hl
          | cons _ _ => simp
        rw [hmant, if_neg this]; rfl
      rw [this]
      unfold readMantissa intPart parseUnsigned
      rw [cut_append hcd]
      have hd := (isDigits_iff [c]).2 ⟨by simp, by simpa using hc⟩
      have hd2 := (isDigits_iff t).2 ⟨hl, ht⟩
      simp only [hd, hd2, digitsVal_single]
      rw [hval]
      simp
      field_simp
  have hne : (101 : UInt8) ∉ mant := fun h => by
    rcases hchars _ h with h | h
    · exact (isDigit_ne' h).1 rfl
    · revert h; decide
  have hshape : mant ++ [101] ++ (if e < 0 then [45] else [43]) ++ E =
      mant ++ 101 :: ((if e < 0 then [45] else [43]) ++ E) := by simp
  rw [hshape]
  unfold readUnsigned
  rw [cut_append hne]
  simp only [Option.orElse_some, hmv, readExp_sign e E hE hv, Option.bind_eq_bind, Option.bind_some]
  show some _ = some _
  congr 1
  have : e = t.length - d := by rw [he]; push_cast [List.length_cons]; ring
  rw [this, zpow_sub₀ (by norm_num), zpow_natCast]
  field_simp

theorem readUnsigned_expStr (m : Nat) (d : ℤ) : readUnsigned (JVal.expStr m d) = some ((m : ℚ) / (10:ℚ) ^ d) := by
  obtain ⟨g1, g2, g3, _⟩ := natStr_spec (((natStr m).length : ℤ) - 1 - d).natAbs
  exact readUnsigned_sci m d _ ((isDigits_iff _).2 ⟨g1, g2⟩) g3

theorem readNum_neg (s : Str) : readNum (45 :: s) = (readUnsigned s).map (fun q => -q) := rfl

theorem readNum_pos {c : UInt8} {t : Str} (h : IsDigit c) : readNum (c :: t) = readUnsigned (c :: t) := by
  unfold readNum
  split
  · next heq =>
    simp only [List.cons.injEq] at heq
    exact absurd heq.1 (isDigit_ne h).2.1
  · rfl

theorem readNum_sign (neg : Bool) (s : Str) (hs : ∃ c t, s = c :: t ∧ IsDigit c) (q : ℚ) (h : readUnsigned s = some q) :
    readNum (signStr neg ++ s) = some (if neg then -q else q) := by
  obtain ⟨c, t, h1, h2⟩ := hs
  cases neg with
  | true => simp [signStr, readNum_neg, h]
  | false =>
    simp only [signStr, Bool.false_eq_true, if_false, List.nil_append]
    rw [h1, readNum_pos h2, ← h1, h]

theorem natStr_head (n : Nat) : ∃ c t, natStr n = c :: t ∧ IsDigit c := by
  obtain ⟨h1, h2, _⟩ := natStr_spec n
  cases h : natStr n with
  | nil => exact absurd h h1
  | cons c t => exact ⟨c, t, rfl, h2 c (by rw [h]; simp)⟩

theorem intStr_sign (n : Int) : intStr n = signStr (decide (n < 0)) ++ natStr n.natAbs := by
  unfold intStr; by_cases h : n < 0 <;> simp [signStr, h]

theorem readNum_intStr (n : Int) : readNum (intStr n) = some (n : ℚ) := by
  have hm : readUnsigned (natStr n.natAbs) = some (n.natAbs : ℚ) := by
    rw [readUnsigned_plain (fun c hc => .inl ((natStr_spec _).2.1 c hc))]
    have e : natStr n.natAbs = fixedStr n.natAbs 0 := by simp [fixedStr]
    rw [e, readMantissa_fixedStr]; simp
  rw [intStr_sign, readNum_sign _ _ (natStr_head _) _ hm]
  congr 1
  by_cases h : n < 0
  · simp only [h, decide_true, if_true]
    have : n = -(n.natAbs : Int) := by omega
    conv_rhs => rw [this]
    push_cast; simp
  · simp only [h, decide_false, Bool.false_eq_true, if_false]
    have : n = (n.natAbs : Int) := by omega
    conv_rhs => rw [this]
    push_cast; simp

/-- the decimal number written for a finite float64. -/
def decVal : F64 → ℚ
  | .fin q => if q = 0 then 0 else
      let p := shortest |q|
      if q < 0 then -((p.1 : ℚ) / (10:ℚ) ^ p.2) else (p.1 : ℚ) / (10:ℚ) ^ p.2
  | _ => 0

theorem decStr_head (m : Nat) (d : ℤ) : ∃ c t, decStr m d = c :: t ∧ IsDigit c := by
  unfold decStr
  split
  · exact natStr_head _
  · exact fixedStr_head _ _

theorem expStr_head (m : Nat) (d : ℤ) : ∃ c t, JVal.expStr m d = c :: t ∧ IsDigit c := by
  obtain ⟨c, t, h1, h2⟩ := natStr_head m
  refine ⟨c, (JVal.expStr m d).tail, ?_, h2⟩
  unfold JVal.expStr
  simp only [h1, List.take_succ_cons, List.take_zero, List.cons_append, List.nil_append, List.append_assoc, List.tail_cons]

theorem readNum_floatStr (v : F64) (hv : v.isFinite = true) : readNum (JVal.floatStr v) = some (decVal v) := by
  cases v with
  | nan => simp [F64.isFinite] at hv
  | inf s => simp [F64.isFinite] at hv
  | negZero => decide +kernel
  | fin q =>
    unfold JVal.floatStr decVal
    simp only
    split
    · decide +kernel
    · split
      · rw [readNum_sign _ _ (expStr_head _ _) _ (readUnsigned_expStr _ _)]
        simp only [decide_eq_true_eq]
      · rw [readNum_sign _ _ (decStr_head _ _) _ (by rw [readUnsigned_plain (decStr_chars _ _), readMantissa_decStr])]
        simp only [decide_eq_true_eq]

/-- the decimal written for a float64 rounds to the same float64 (the sign of a negative zero apart). -/
theorem decVal_roundtrip (v : F64) (hv : v.isFinite = true) (hval : v.Valid) :
    F64.rnd (decVal v) = if v = .negZero then .fin 0 else v := by
  cases v with
  | nan => simp [F64.isFinite] at hv
  | inf s => simp [F64.isFinite] at hv
  | negZero => decide +kernel
  | fin q =>
    simp only [reduceCtorEq, if_false]
    by_cases h0 : q = 0
    · subst h0; decide +kernel
    · have hr := shortest_roundtrip |q| (neg_valid hval h0) (abs_pos.2 h0)
      unfold decVal
      simp only [h0, if_false]
      by_cases hq : q < 0
      · simp only [hq, if_true]
        rw [F64.rnd_neg_of_fin hr (by simpa using h0), abs_of_neg hq]
        simp
      · simp only [hq, if_false]
        rw [hr, abs_of_nonneg (not_lt.1 hq)]

/-! ### The characters of numbers -/

theorem natStr_numChars (n : Nat) : ∀ c ∈ natStr n, isNumChar c = true :=
  fun c hc => isDigit_numChar ((natStr_spec n).2.1 c hc)

theorem signStr_numChars (neg : Bool) : ∀ c ∈ signStr neg, isNumChar c = true := by
  cases neg <;> decide +kernel

theorem intStr_numChars (n : Int) : ∀ c ∈ intStr n, isNumChar c = true := by
  intro c hc
  rw [intStr_sign] at hc
  rcases List.mem_append.1 hc with hc | hc
  · exact signStr_numChars _ c hc
  · exact natStr_numChars _ c hc

theorem decStr_numChars (m : Nat) (d : ℤ) : ∀ c ∈ decStr m d, isNumChar c = true := by
  intro c hc
  rcases decStr_chars m d c hc with h | h
  · exact isDigit_numChar h
  · subst h; decide

theorem expStr_numChars (m : Nat) (d : ℤ) : ∀ c ∈ JVal.expStr m d, isNumChar c = true := by
  intro c hc
  unfold JVal.expStr at hc
  simp only [List.mem_append] at hc
  rcases hc with (((hc | hc) | hc) | hc) | hc
  · exact natStr_numChars m c (List.mem_of_mem_take hc)
  · split at hc
    · simp at hc
    · rcases List.mem_cons.1 hc with hc | hc
      · subst hc; decide
      · exact natStr_numChars m c (List.mem_of_mem_drop hc)
  · simp at hc; subst hc; decide
  · split at hc <;> (simp at hc; subst hc; decide)
  · exact natStr_numChars _ c hc

theorem floatStr_numChars (v : F64) (hv : v.isFinite = true) : ∀ c ∈ JVal.floatStr v, isNumChar c = true := by
  cases v with
  | nan => simp [F64.isFinite] at hv
  | inf s => simp [F64.isFinite] at hv
  | negZero => decide +kernel
  | fin q =>
    unfold JVal.floatStr
    simp only
    intro c hc
    split at hc
    · revert c; decide +kernel
    · split at hc <;> rcases List.mem_append.1 hc with hc | hc
      · exact signStr_numChars _ c hc
      · exact expStr_numChars _ _ c hc
      · exact signStr_numChars _ c hc
      · exact decStr_numChars _ _ c hc

/-! ## Strings -/

/-- what a rune of `runes` looks like. -/
def RuneOk : Rune → Prop
  | .ascii b => b < 0x80
  | .multi bytes => bytes ≠ [] ∧ ∀ b ∈ bytes, 0x80 ≤ b
  | .bad b => 0x80 ≤ b

theorem isCont_ge {b : UInt8} (h : isCont b = true) : 0x80 ≤ b := by
  simp only [isCont, decide_eq_true_eq] at h; exact h.1

theorem ge_of_ge {k b : UInt8} (h : k ≤ b) (hk : 0x80 ≤ k) : 0x80 ≤ b := by
  rw [UInt8.le_iff_toNat_le] at *; omega

theorem isTwo_ge {a b : UInt8} (h : isTwo a b = true) : 0x80 ≤ a ∧ 0x80 ≤ b := by
  simp only [isTwo, Bool.and_eq_true, decide_eq_true_eq] at h
  exact ⟨ge_of_ge h.1.1 (by decide), isCont_ge h.2⟩

theorem isThree_ge {a b c : UInt8} (h : isThree a b c = true) : 0x80 ≤ a ∧ 0x80 ≤ b ∧ 0x80 ≤ c := by
  simp only [isThree, Bool.and_eq_true, Bool.or_eq_true, decide_eq_true_eq] at h
  obtain ⟨h, hc⟩ := h
  refine ⟨?_, ?_, isCont_ge hc⟩
  · rcases h with ((h | h) | h) | h
    · rw [h.1]; decide
    · exact ge_of_ge h.1.1 (by decide)
    · rw [h.1]; decide
    · exact ge_of_ge h.1.1 (by decide)
  · rcases h with ((h | h) | h) | h
    · exact ge_of_ge h.2.1 (by decide)
    · exact isCont_ge h.2
    · exact ge_of_ge h.2.1 (by decide)
    · exact isCont_ge h.2

theorem isFour_ge {a b c d : UInt8} (h : isFour a b c d = true) : 0x80 ≤ a ∧ 0x80 ≤ b ∧ 0x80 ≤ c ∧ 0x80 ≤ d := by
  simp only [isFour, Bool.and_eq_true, Bool.or_eq_true, decide_eq_true_eq] at h
  obtain ⟨⟨h, hc⟩, hd⟩ := h
  refine ⟨?_, ?_, isCont_ge hc, isCont_ge hd⟩
  · rcases h with (h | h) | h
    · rw [h.1]; decide
    · exact ge_of_ge h.1.1 (by decide)
    · rw [h.1]; decide
  · rcases h with (h | h) | h
    · exact ge_of_ge h.2.1 (by decide)
    · exact isCont_ge h.2
    · exact ge_of_ge h.2.1 (by decide)

theorem runes_ok (s : Str) : ∀ r ∈ runes s, RuneOk r := by
  fun_induction runes s with
  | case1 => simp
  | case2 b0 t h ih =>
    intro r hr
    rcases List.mem_cons.1 hr with hr | hr
    · subst hr; exact h
    · exact ih r hr
  | case3 b0 h => intro r hr; simp at hr; subst hr; exact UInt8.not_lt.1 h
  | case4 b0 h b1 t1 h2 ih =>
    intro r hr
    rcases List.mem_cons.1 hr with hr | hr
    · subst hr; have := isTwo_ge h2; simp [RuneOk, this]
    · exact ih r hr
  | case5 b0 h b1 h2 ih =>
    intro r hr
    rcases List.mem_cons.1 hr with hr | hr
    · subst hr; exact UInt8.not_lt.1 h
    · exact ih r hr
  | case6 b0 h b1 h2 b2 t2 h3 ih =>
    intro r hr
    rcases List.mem_cons.1 hr with hr | hr
    · subst hr; have := isThree_ge h3; simp [RuneOk, this]
    · exact ih r hr
  | case7 b0 h b1 h2 b2 h3 ih =>
    intro r hr
    rcases List.mem_cons.1 hr with hr | hr
    · subst hr; exact UInt8.not_lt.1 h
    · exact ih r hr
  | case8 b0 h b1 h2 b2 h3 b3 t3 h4 ih =>
    intro r hr
    rcases List.mem_cons.1 hr with hr | hr
    · subst hr; have := isFour_ge h4; simp [RuneOk, this]
    · exact ih r hr
  | case9 b0 h b1 h2 b2 h3 b3 t3 h4 ih =>
    intro r hr
    rcases List.mem_cons.1 hr with hr | hr
    · subst hr; exact UInt8.not_lt.1 h
    · exact ih r hr

/-- cutting into runes loses nothing. -/
theorem runes_bytes (s : Str) : (runes s).flatMap Rune.bytes = s := by
  fun_induction runes s <;> simp_all [Rune.bytes]

theorem fixUtf8_of_valid {s : Str} (h : validUtf8 s = true) : fixUtf8 s = s := by
  conv_rhs => rw [← runes_bytes s]
  unfold fixUtf8
  unfold validUtf8 at h
  rw [List.all_eq_true] at h
  apply List.flatMap_congr
  intro r hr
  have := h r hr
  cases r <;> simp_all

/-- the bytes a rune stands for after replacement of ill-formed ones. -/
def fixRune : Rune → Str
  | .bad _ => [0xEF, 0xBF, 0xBD]
  | r => r.bytes

theorem fixUtf8_eq (s : Str) : fixUtf8 s = (runes s).flatMap fixRune := by
  unfold fixUtf8
  apply List.flatMap_congr
  intro r _
  cases r <;> rfl

/-- how the reader sees the escape of a byte below 0x80. -/
def escCheck (b : UInt8) : Bool :=
  match JVal.escByte b with
  | [c] => decide (c = b ∧ ¬ c < 32 ∧ c ≠ 34 ∧ c ≠ 92)
  | [x, e] => decide (x = 92 ∧ e ≠ 117 ∧ escVal e = some b)
  | [x, u, a, b', c, d] => decide (x = 92 ∧ u = 117 ∧ hex4 a b' c d = some b.toNat)
  | _ => false

theorem escByte_check (b : UInt8) (h : b < 0x80) : escCheck b = true := by
  have : ∀ n < 128, escCheck (UInt8.ofNat n) = true := by decide +kernel
  have := this b.toNat (by rw [UInt8.lt_iff_toNat_lt] at h; exact h)
  rwa [UInt8.ofNat_toNat] at this

theorem utf8_ascii (b : UInt8) (h : b < 0x80) : utf8 b.toNat = [b] := by
  have : b.toNat < 0x80 := by rw [UInt8.lt_iff_toNat_lt] at h; exact h
  unfold utf8
  rw [if_pos this, UInt8.ofNat_toNat]

theorem readToks_plain {c : UInt8} (h1 : ¬ c < 32) (h2 : c ≠ 34) (h3 : c ≠ 92) (s : Str) :
    readToks (c :: s) = (readToks s).map (fun p => (.byte c :: p.1, p.2)) := by
  rw [readToks.eq_def]
  simp only [h1, h2, h3, if_false]

theorem readToks_esc {e b : UInt8} (h1 : e ≠ 117) (h2 : escVal e = some b) (s : Str) :
    readToks (92 :: e :: s) = (readToks s).map (fun p => (.byte b :: p.1, p.2)) := by
  rw [readToks.eq_def]
  simp [h1, h2]

theorem readToks_u {a b c d : UInt8} {u : Nat} (h : hex4 a b c d = some u) (s : Str) :
    readToks (92 :: 117 :: a :: b :: c :: d :: s) = (readToks s).map (fun p => (.unit u :: p.1, p.2)) := by
  rw [readToks.eq_def]
  simp [h]

theorem joinToks_unit {u : Nat} (h : u < 0xD800 ∨ 0xE000 ≤ u) (us : List Tok) : joinToks (.unit u :: us) = utf8 u ++ joinToks us := by
  rw [joinToks.eq_def]
  simp only
  rw [if_neg (by omega), if_neg (by omega)]

/-- reading one escaped rune. -/
theorem readToks_rune (r : Rune) (hr : RuneOk r) (s : Str) : ∃ ts, (∀ p, readToks s = some p → readToks (JVal.escRune r ++ s) = some (ts ++ p.1, p.2)) ∧
    ∀ us, joinToks (ts ++ us) = fixRune r ++ joinToks us := by
  cases r with
  | ascii b =>
    have hc := escByte_check b hr
    have hb : b.toNat < 0x80 := by
      have : b < 0x80 := hr
      rw [UInt8.lt_iff_toNat_lt] at this; exact this
    unfold escCheck at hc
    simp only [JVal.escRune, fixRune, Rune.bytes]
    split at hc
    · next c hc' =>
      simp only [decide_eq_true_eq] at hc
      obtain ⟨rfl, h1, h2, h3⟩ := hc
      refine ⟨[.byte c], ?_, fun us => rfl⟩
      intro p hp
      simp [hc', readToks_plain h1 h2 h3, hp]
    · next x e hc' =>
      simp only [decide_eq_true_eq] at hc
      obtain ⟨rfl, h1, h2⟩ := hc
      refine ⟨[.byte b], ?_, fun us => rfl⟩
      intro p hp
      simp [hc', readToks_esc h1 h2, hp]
    · next x u a b' c d hc' =>
      simp only [decide_eq_true_eq] at hc
      obtain ⟨rfl, rfl, h2⟩ := hc
      refine ⟨[.unit b.toNat], ?_, fun us => ?_⟩
      · intro p hp
        simp [hc', readToks_u h2, hp]
      · rw [List.singleton_append, joinToks_unit (by omega), utf8_ascii b hr]
    · exact absurd hc (by simp)
  | bad b =>
    refine ⟨[.unit 0xFFFD], ?_, fun us => ?_⟩
    · intro p hp
      have e : JVal.escRune (.bad b) = [92, 117, 102, 102, 102, 100] := by
        show bs "\\ufffd" = _
        decide +kernel
      have h4 : hex4 102 102 102 100 = some 0xFFFD := by decide +kernel
      rw [e]
      simp [readToks_u h4, hp]
    · rw [List.singleton_append, joinToks_unit (by omega)]
      rfl
  | multi bytes =>
    simp only [JVal.escRune]
    split
    · next h =>
      refine ⟨[.unit 0x2028], ?_, fun us => ?_⟩
      · intro p hp
        have e : bs "\\u2028" = [92, 117, 50, 48, 50, 56] := by decide +kernel
        have h4 : hex4 50 48 50 56 = some 0x2028 := by decide +kernel
        rw [e]
        simp [readToks_u h4, hp]
      · rw [List.singleton_append, joinToks_unit (by omega), h]
        rfl
    · split
      · next h =>
        refine ⟨[.unit 0x2029], ?_, fun us => ?_⟩
        · intro p hp
          have e : bs "\\u2029" = [92, 117, 50, 48, 50, 57] := by decide +kernel
          have h4 : hex4 50 48 50 57 = some 0x2029 := by decide +kernel
          rw [e]
          simp [readToks_u h4, hp]
        · rw [List.singleton_append, joinToks_unit (by omega), h]
          rfl
      · refine ⟨bytes.map .byte, ?_, fun us => ?_⟩
        · intro p hp
          have hall := hr.2
          clear hr
          rename_i hn1 hn2
          clear hn1 hn2
          induction bytes with
          | nil => simp [hp]
          | cons b t ih =>
            have hb : 0x80 ≤ b := hall b (by simp)
            have h1 : ¬ b = 34 := by rintro rfl; revert hb; decide
            have h2 : ¬ b = 92 := by rintro rfl; revert hb; decide
            have h3 : ¬ b < 32 := by rw [UInt8.le_iff_toNat_le] at hb; rw [UInt8.lt_iff_toNat_lt]; simp at hb ⊢; omega
            have := ih (fun x hx => hall x (by simp [hx]))
            rw [List.cons_append, readToks_plain h3 h1 h2, this]
            simp
        · simp only [fixRune, Rune.bytes]
          clear hr
          rename_i hn1 hn2
          clear hn1 hn2
          induction bytes with
          | nil => rfl
          | cons b t ih => simp only [List.map_cons, List.cons_append, joinToks]; rw [ih]

theorem readToks_runes (rs : List Rune) (h : ∀ r ∈ rs, RuneOk r) (rest : Str) :
    ∃ ts, readToks (rs.flatMap JVal.escRune ++ 34 :: rest) = some (ts, rest) ∧ joinToks ts = rs.flatMap fixRune := by
  induction rs with
  | nil => exact ⟨[], by rw [readToks.eq_def]; simp, rfl⟩
  | cons r rs ih =>
    obtain ⟨ts, h1, h2⟩ := ih (fun x hx => h x (by simp [hx]))
    obtain ⟨us, g1, g2⟩ := readToks_rune r (h r (by simp)) (rs.flatMap JVal.escRune ++ 34 :: rest)
    refine ⟨us ++ ts, ?_, ?_⟩
    · simp only [List.flatMap_cons, List.append_assoc]
      exact g1 _ h1
    · rw [g2, h2]; rfl

/-- the text of a string reads back as the string with ill-formed bytes replaced. -/
theorem readStr_encStr (s rest : Str) : ∃ t, JVal.encStr s ++ rest = 34 :: t ∧ readStr t = some (fixUtf8 s, rest) := by
  obtain ⟨ts, h1, h2⟩ := readToks_runes (runes s) (runes_ok s) rest
  refine ⟨(runes s).flatMap JVal.escRune ++ 34 :: rest, by simp [JVal.encStr], ?_⟩
  unfold readStr
  rw [h1, Option.map_some, h2, ← fixUtf8_eq]

/-! ## Values -/

mutual
/-- what the text of a value means: floats become the decimals written for them, strings are well-formed UTF-8. -/
def JVal.view : JVal → Json
  | .null => .null
  | .bool b => .bool b
  | .int n => .num n
  | .float v => .num (decVal v)
  | .str s => .str (fixUtf8 s)
  | .arr xs => .arr (viewElems xs)
  | .obj ms => .obj (viewMembers ms)
def JVal.viewElems : List JVal → List Json
  | [] => []
  | x :: xs => JVal.view x :: viewElems xs
def JVal.viewMembers : List (Str × JVal) → List (Str × Json)
  | [] => []
  | (k, v) :: ms => (fixUtf8 k, JVal.view v) :: viewMembers ms
end

namespace JVal

theorem viewElems_eq (xs : List JVal) : viewElems xs = xs.map view := by
  induction xs with
  | nil => rfl
  | cons x xs ih => rw [viewElems, ih]; rfl

theorem viewMembers_eq (ms : List (Str × JVal)) : viewMembers ms = ms.map (fun p => (fixUtf8 p.1, p.2.view)) := by
  induction ms with
  | nil => rfl
  | cons p ms ih => obtain ⟨k, v⟩ := p; rw [viewMembers, ih]; rfl

/-- only white space is added between the pieces. -/
structure Layout.Ok (L : Layout) : Prop where
  nl : ∀ d : Nat, ∀ c ∈ L.nl d, isWs c = true
  colon : ∃ w : Str, L.colon = 58 :: w ∧ ∀ c ∈ w, isWs c = true

theorem compact_ok : compact.Ok := ⟨by simp [compact], [], rfl, by simp⟩
theorem indented_ok (indent : Str) (h : ∀ c ∈ indent, isWs c = true) : (indented indent).Ok := by
  refine ⟨?_, [32], rfl, by decide⟩
  intro d c hc
  simp only [indented, List.mem_cons, List.mem_flatten, List.mem_replicate] at hc
  rcases hc with rfl | ⟨l, ⟨_, rfl⟩, hl⟩
  · decide
  · exact h c hl

theorem ws_append {w : Str} (h : ∀ c ∈ w, isWs c = true) (s : Str) : ws (w ++ s) = ws s := by
  unfold ws
  induction w with
  | nil => rfl
  | cons c t ih => rw [List.cons_append, List.dropWhile_cons_of_pos (h c (by simp)), ih (fun x hx => h x (by simp [hx]))]

theorem ws_cons {c : UInt8} (h : isWs c = false) (t : Str) : ws (c :: t) = c :: t := by
  unfold ws; rw [List.dropWhile_cons_of_neg (by simp [h])]

theorem readValue_ws {w : Str} (h : ∀ c ∈ w, isWs c = true) (fuel : Nat) (s : Str) : readValue fuel (w ++ s) = readValue fuel s := by
  cases fuel with
  | zero => rfl
  | succ n => rw [readValue, readValue, ws_append h]

theorem readElems_ws {w : Str} (h : ∀ c ∈ w, isWs c = true) (fuel : Nat) (s : Str) : readElems fuel (w ++ s) = readElems fuel s := by
  cases fuel with
  | zero => rfl
  | succ n => rw [readElems, readElems, readValue_ws h]

theorem readMembers_ws {w : Str} (h : ∀ c ∈ w, isWs c = true) (fuel : Nat) (s : Str) : readMembers fuel (w ++ s) = readMembers fuel s := by
  cases fuel with
  | zero => rfl
  | succ n => rw [readMembers, readMembers, ws_append h]

/-- not in the middle of a number. -/
def Stop (rest : Str) : Prop := ∀ c ∈ rest.head?, isNumChar c = false

theorem ws_not_num {c : UInt8} (h : isWs c = true) : isNumChar c = false := by
  have : ∀ n < 256, isWs (UInt8.ofNat n) = true → isNumChar (UInt8.ofNat n) = false := by decide +kernel
  have := this c.toNat c.toNat_lt
  rw [UInt8.ofNat_toNat] at this
  exact this h

theorem num_not_ws {c : UInt8} (h : isNumChar c = true) : isWs c = false ∧ c ≠ 123 ∧ c ≠ 91 ∧ c ≠ 34 ∧ c ≠ 110 ∧ c ≠ 116 ∧ c ≠ 102 ∧ c ≠ 93 ∧ c ≠ 125 := by
  have : ∀ n < 256, isNumChar (UInt8.ofNat n) = true → (isWs (UInt8.ofNat n) = false ∧ UInt8.ofNat n ≠ 123 ∧ UInt8.ofNat n ≠ 91 ∧ UInt8.ofNat n ≠ 34 ∧
    UInt8.ofNat n ≠ 110 ∧ UInt8.ofNat n ≠ 116 ∧ UInt8.ofNat n ≠ 102 ∧ UInt8.ofNat n ≠ 93 ∧ UInt8.ofNat n ≠ 125) := by decide +kernel
  have := this c.toNat c.toNat_lt
  rw [UInt8.ofNat_toNat] at this
  exact this h

theorem stop_ws {w : Str} (h : ∀ c ∈ w, isWs c = true) {c : UInt8} (hc : isNumChar c = false) (s : Str) : Stop (w ++ c :: s) := by
  cases w with
  | nil => intro x hx; simp at hx; subst hx; exact hc
  | cons a t => intro x hx; simp at hx; subst hx; exact ws_not_num (h a (by simp))

theorem takeWhile_num {s rest : Str} (h : ∀ c ∈ s, isNumChar c = true) (hr : Stop rest) :
    (s ++ rest).takeWhile isNumChar = s ∧ (s ++ rest).dropWhile isNumChar = rest := by
  induction s with
  | nil =>
    cases rest with
    | nil => exact ⟨rfl, rfl⟩
    | cons c t =>
      have : isNumChar c = false := hr c (by simp)
      simp [this]
  | cons c t ih =>
    have := ih (fun x hx => h x (by simp [hx]))
    have hc := h c (by simp)
    simp [hc, this]

theorem readValue_num {s : Str} (hne : s ≠ []) (h : ∀ c ∈ s, isNumChar c = true) {q : ℚ} (hq : readNum s = some q) {rest : Str} (hr : Stop rest) (fuel : Nat) :
    readValue (fuel + 1) (s ++ rest) = some (.num q, rest) := by
  obtain ⟨h1, h2⟩ := takeWhile_num h hr
  cases s with
  | nil => exact absurd rfl hne
  | cons c t =>
    obtain ⟨g0, g1, g2, g3, g4, g5, g6, _⟩ := num_not_ws (h c (by simp))
    rw [readValue, List.cons_append, ws_cons g0]
    simp only [g1, g2, g3, g4, g5, g6, if_false]
    rw [List.cons_append] at h1 h2
    rw [h1, h2, hq]; rfl

theorem encStr_cons (s : Str) : ∃ t, encStr s = 34 :: t := ⟨(encStr s).tail, by simp [encStr]⟩

/-- the first character of a text. -/
theorem enc_head (L : Layout) (depth : Nat) (v : JVal) (hv : v.encodable = true) : ∃ c t, v.enc L depth = c :: t ∧ isWs c = false ∧ c ≠ 93 ∧ c ≠ 125 := by
  cases v with
  | null => exact ⟨110, bs "ull", by rw [enc]; decide +kernel, by decide⟩
  | bool b => cases b with
    | true => exact ⟨116, bs "rue", by rw [enc]; decide +kernel, by decide⟩
    | false => exact ⟨102, bs "alse", by rw [enc]; decide +kernel, by decide⟩
  | int n =>
    rw [enc]
    have hc := intStr_numChars n
    cases h : intStr n with
    | nil =>
      rw [intStr_sign] at h
      obtain ⟨c, t, h1, _⟩ := natStr_head n.natAbs
      rw [h1] at h; simp at h
    | cons c t =>
      obtain ⟨g0, _, _, _, _, _, _, g7, g8⟩ := num_not_ws (hc c (by rw [h]; simp))
      exact ⟨c, t, rfl, g0, g7, g8⟩
  | float v =>
    rw [enc]
    have hf : v.isFinite = true := by rw [encodable] at hv; exact hv
    have hc := floatStr_numChars v hf
    cases h : floatStr v with
    | nil =>
      have := readNum_floatStr v hf
      rw [h] at this
      have e : readNum [] = none := by decide +kernel
      rw [e] at this; cases this
    | cons c t =>
      obtain ⟨g0, _, _, _, _, _, _, g7, g8⟩ := num_not_ws (hc c (by rw [h]; simp))
      exact ⟨c, t, rfl, g0, g7, g8⟩
  | str s =>
    obtain ⟨t, ht⟩ := encStr_cons s
    exact ⟨34, t, by rw [enc, ht], by decide⟩
  | arr xs =>
    cases xs with
    | nil => exact ⟨91, [93], by rw [enc]; decide +kernel, by decide⟩
    | cons x xs => exact ⟨91, _, by rw [enc]; simp only [List.cons_append, List.nil_append]; rfl, by decide⟩
  | obj ms =>
    cases ms with
    | nil => exact ⟨123, [125], by rw [enc]; decide +kernel, by decide⟩
    | cons m ms => obtain ⟨k, v⟩ := m; exact ⟨123, _, by rw [enc]; simp only [List.cons_append, List.nil_append]; rfl, by decide⟩

theorem encElems_pos (L : Layout) (depth : Nat) (xs : List JVal) : 1 ≤ (encElems L depth xs).length := by
  cases xs <;> (rw [encElems]; simp)
theorem encMembers_pos (L : Layout) (depth : Nat) (ms : List (Str × JVal)) : 1 ≤ (encMembers L depth ms).length := by
  cases ms with
  | nil => rw [encMembers]; simp
  | cons m ms => obtain ⟨k, v⟩ := m; rw [encMembers]; simp

theorem encElems_stop {L : Layout} (hL : L.Ok) (depth : Nat) (xs : List JVal) (rest : Str) : Stop (encElems L depth xs ++ rest) := by
  cases xs with
  | nil => rw [encElems, List.append_assoc]; exact stop_ws (hL.nl _) (by decide) _
  | cons x xs => rw [encElems]; simp only [List.append_assoc, List.cons_append]; exact stop_ws (w := []) (by simp) (by decide) _
theorem encMembers_stop {L : Layout} (hL : L.Ok) (depth : Nat) (ms : List (Str × JVal)) (rest : Str) : Stop (encMembers L depth ms ++ rest) := by
  cases ms with
  | nil => rw [encMembers, List.append_assoc]; exact stop_ws (hL.nl _) (by decide) _
  | cons m ms =>
    obtain ⟨k, v⟩ := m
    rw [encMembers]; simp only [List.append_assoc, List.cons_append]; exact stop_ws (w := []) (by simp) (by decide) _

mutual
/-- every text of a value reads back as what the value means. -/
theorem read_enc {L : Layout} (hL : L.Ok) (v : JVal) (hv : v.encodable = true) (depth fuel : Nat) (rest : Str) (hr : Stop rest)
    (hf : (v.enc L depth).length ≤ fuel) : readValue fuel (v.enc L depth ++ rest) = some (v.view, rest) := by
  obtain ⟨c, t, hct, _⟩ := enc_head L depth v hv
  obtain ⟨n, rfl⟩ : ∃ n, fuel = n + 1 := ⟨fuel - 1, by rw [hct] at hf; simp at hf; omega⟩
  match hve : v, hv, hct, hf with
  | .null, _, _, _ =>
    have e : bs "null" = 110 :: bs "ull" := by decide +kernel
    have e3 : (bs "ull").length = 3 := by decide +kernel
    rw [enc, view, e, List.cons_append, readValue, ws_cons (by decide)]
    simp [List.take_left' e3, List.drop_left' e3]
  | .bool true, _, _, _ =>
    have e : bs "true" = 116 :: bs "rue" := by decide +kernel
    have e3 : (bs "rue").length = 3 := by decide +kernel
    rw [enc, view, if_pos rfl, e, List.cons_append, readValue, ws_cons (by decide)]
    simp [List.take_left' e3, List.drop_left' e3]
  | .bool false, _, _, _ =>
    have e : bs "false" = 102 :: bs "alse" := by decide +kernel
    have e3 : (bs "alse").length = 4 := by decide +kernel
    rw [enc, view, if_neg (by decide), e, List.cons_append, readValue, ws_cons (by decide)]
    simp [List.take_left' e3, List.drop_left' e3]
  | .int k, _, hct, _ =>
    rw [enc] at hct ⊢
    rw [view]
    exact readValue_num (by rw [hct]; simp) (intStr_numChars k) (readNum_intStr k) hr n
  | .float x, hv, hct, _ =>
    rw [enc] at hct ⊢
    rw [view]
    rw [encodable] at hv
    exact readValue_num (by rw [hct]; simp) (floatStr_numChars x hv) (readNum_floatStr x hv) hr n
  | .str s, _, _, _ =>
    rw [enc, view]
    obtain ⟨t, h1, h2⟩ := readStr_encStr s rest
    rw [h1, readValue, ws_cons (by decide)]
    simp [h2]
  | .arr [], _, _, _ =>
    have e : bs "[]" = [91, 93] := by decide +kernel
    rw [enc, e, view, viewElems, List.cons_append, readValue, ws_cons (by decide)]
    simp [ws_cons (show isWs 93 = false by decide)]
  | .arr (x :: xs), hv, _, hf =>
    rw [encodable, encodableElems, Bool.and_eq_true] at hv
    rw [enc] at hf ⊢
    rw [view, viewElems]
    obtain ⟨c', t', h1, h2, h3, _⟩ := enc_head L (depth + 1) x hv.1
    have key : readElems n (L.nl (depth + 1) ++ (enc L (depth + 1) x ++ (encElems L depth xs ++ rest))) = some (x.view :: viewElems xs, rest) := by
      rw [readElems_ws (hL.nl _)]
      exact read_elems hL x xs hv.1 hv.2 depth n rest (by simp at hf; omega)
    simp only [List.append_assoc, List.cons_append, List.nil_append]
    rw [readValue, ws_cons (by decide)]
    simp only [show (91 : UInt8) ≠ 123 by decide, if_false, if_true]
    rw [ws_append (hL.nl _), key, h1, List.cons_append, ws_cons h2]
    split
    · next heq => simp only [List.cons.injEq] at heq; exact absurd heq.1 h3
    · rfl
  | .obj [], _, _, _ =>
    have e : bs "{}" = [123, 125] := by decide +kernel
    rw [enc, e, view, viewMembers, List.cons_append, readValue, ws_cons (by decide)]
    simp [ws_cons (show isWs 125 = false by decide)]
  | .obj ((k, x) :: ms), hv, _, hf =>
    rw [encodable, encodableMembers, Bool.and_eq_true] at hv
    rw [enc] at hf ⊢
    rw [view, viewMembers]
    obtain ⟨t', h1⟩ := encStr_cons k
    have key : readMembers n (L.nl (depth + 1) ++ (encStr k ++ (L.colon ++ (enc L (depth + 1) x ++ (encMembers L depth ms ++ rest))))) =
        some ((fixUtf8 k, x.view) :: viewMembers ms, rest) := by
      rw [readMembers_ws (hL.nl _)]
      exact read_members hL k x ms hv.1 hv.2 depth n rest (by simp at hf; omega)
    simp only [List.append_assoc, List.cons_append, List.nil_append]
    rw [readValue, ws_cons (by decide)]
    simp only [if_true]
    rw [ws_append (hL.nl _), key, h1, List.cons_append, ws_cons (by decide)]
    split
    · next heq => simp at heq
    · rfl
termination_by sizeOf v
decreasing_by all_goals (try simp [*]); all_goals omega
theorem read_elems {L : Layout} (hL : L.Ok) (x : JVal) (xs : List JVal) (hx : x.encodable = true) (hxs : encodableElems xs = true)
    (depth fuel : Nat) (rest : Str) (hf : (x.enc L (depth + 1)).length + (encElems L depth xs).length ≤ fuel) :
    readElems fuel (x.enc L (depth + 1) ++ (encElems L depth xs ++ rest)) = some (x.view :: viewElems xs, rest) := by
  have hp := encElems_pos L depth xs
  obtain ⟨n, rfl⟩ : ∃ n, fuel = n + 1 := ⟨fuel - 1, by omega⟩
  rw [readElems, read_enc hL x hx (depth + 1) n _ (encElems_stop hL depth xs rest) (by omega)]
  simp only [Option.bind_eq_bind, Option.bind_some]
  match hve : xs, hxs, hf with
  | [], _, _ =>
    rw [encElems, List.append_assoc, ws_append (hL.nl _), List.singleton_append, ws_cons (by decide), viewElems]; rfl
  | y :: ys, hxs, hf =>
    rw [encodableElems, Bool.and_eq_true] at hxs
    rw [encElems] at hf ⊢
    have key : readElems n (L.nl (depth + 1) ++ (enc L (depth + 1) y ++ (encElems L depth ys ++ rest))) = some (y.view :: viewElems ys, rest) := by
      rw [readElems_ws (hL.nl _)]
      exact read_elems hL y ys hxs.1 hxs.2 depth n rest (by simp at hf; omega)
    simp only [List.append_assoc, List.cons_append, List.nil_append]
    rw [ws_cons (by decide)]
    simp only [key]
    rw [viewElems]; rfl
termination_by 1 + sizeOf x + sizeOf xs
decreasing_by all_goals (try simp [*]); all_goals omega
theorem read_members {L : Layout} (hL : L.Ok) (k : Str) (x : JVal) (ms : List (Str × JVal)) (hx : x.encodable = true) (hxs : encodableMembers ms = true)
    (depth fuel : Nat) (rest : Str) (hf : (encStr k).length + (x.enc L (depth + 1)).length + (encMembers L depth ms).length ≤ fuel) :
    readMembers fuel (encStr k ++ (L.colon ++ (x.enc L (depth + 1) ++ (encMembers L depth ms ++ rest)))) = some ((fixUtf8 k, x.view) :: viewMembers ms, rest) := by
  have hp := encMembers_pos L depth ms
  obtain ⟨n, rfl⟩ : ∃ n, fuel = n + 1 := ⟨fuel - 1, by omega⟩
  obtain ⟨t, h1, h2⟩ := readStr_encStr k (L.colon ++ (x.enc L (depth + 1) ++ (encMembers L depth ms ++ rest)))
  obtain ⟨w, hw, hws⟩ := hL.colon
  rw [readMembers, h1, ws_cons (by decide)]
  simp only [h2, Option.bind_eq_bind, Option.bind_some]
  rw [hw, List.cons_append, ws_cons (by decide)]
  simp only
  rw [readValue_ws hws, read_enc hL x hx (depth + 1) n _ (encMembers_stop hL depth ms rest) (by omega)]
  simp only [Option.bind_some]
  match hve : ms, hxs, hf with
  | [], _, _ =>
    rw [encMembers, List.append_assoc, ws_append (hL.nl _), List.singleton_append, ws_cons (by decide), viewMembers]; rfl
  | (k', y) :: ys, hxs, hf =>
    rw [encodableMembers, Bool.and_eq_true] at hxs
    rw [encMembers] at hf ⊢
    have key : readMembers n (L.nl (depth + 1) ++ (encStr k' ++ (L.colon ++ (enc L (depth + 1) y ++ (encMembers L depth ys ++ rest))))) =
        some ((fixUtf8 k', y.view) :: viewMembers ys, rest) := by
      rw [readMembers_ws (hL.nl _)]
      exact read_members hL k' y ys hxs.1 hxs.2 depth n rest (by simp at hf; omega)
    simp only [List.append_assoc, List.cons_append, List.nil_append]
    rw [ws_cons (by decide)]
    simp only [key]
    rw [viewMembers]; rfl
termination_by 1 + sizeOf x + sizeOf ms
decreasing_by all_goals (try simp [*]); all_goals omega
end

theorem readJson_enc {L : Layout} (hL : L.Ok) (v : JVal) (hv : v.encodable = true) : readJson (v.enc L 0) = some v.view := by
  have := read_enc hL v hv 0 ((v.enc L 0).length + 1) [] (by intro c hc; simp at hc) (by omega)
  rw [List.append_nil] at this
  unfold readJson
  rw [this]
  rfl

theorem readJson_marshal {v : JVal} {s : Str} (h : v.marshal = some s) : readJson s = some v.view := by
  unfold marshal at h
  split at h
  · next hv => simp only [Option.some.injEq] at h; rw [← h]; exact readJson_enc compact_ok v hv
  · cases h

theorem readJson_marshalIndent {v : JVal} {indent s : Str} (hi : ∀ c ∈ indent, isWs c = true) (h : v.marshalIndent indent = some s) :
    readJson s = some v.view := by
  unfold marshalIndent at h
  split at h
  · next hv => simp only [Option.some.injEq] at h; rw [← h]; exact readJson_enc (indented_ok indent hi) v hv
  · cases h

end JVal
