import Verif.Spec.StatsD
import Verif.Lemmas.Aggregation
import Mathlib.Tactic.Ring
import Mathlib.Tactic.FieldSimp
import Mathlib.Tactic.Linarith
import Mathlib.Tactic.NormNum
/-! Decimal text of numbers. -/
open Spec

/-- ASCII digit. -/
def IsDigit (c : UInt8) : Prop := 48 ≤ c ∧ c ≤ 57

theorem digitChar_isDigit (d : Nat) (h : d < 10) : IsDigit (digitChar d) := by
  have : ∀ d < 10, 48 ≤ digitChar d ∧ digitChar d ≤ 57 := by decide +kernel
  exact this d h

theorem digitChar_val (d : Nat) (h : d < 10) : (digitChar d).toNat - 48 = d := by
  have : ∀ d < 10, (digitChar d).toNat - 48 = d := by decide +kernel
  exact this d h

theorem digitsVal_append (a b : Str) : digitsVal (a ++ b) = digitsVal a * 10 ^ b.length + digitsVal b := by
  unfold digitsVal
  rw [List.foldl_append]
  generalize a.foldl (fun a c => 10 * a + (c.toNat - 48)) 0 = x
  induction b using snocInduction with
  | nil => simp
  | snoc t c ih =>
    rw [List.foldl_append, List.foldl_append, ih]
    simp only [List.foldl_cons, List.foldl_nil, List.length_append, List.length_singleton, pow_succ]
    ring

theorem digitsVal_single (c : UInt8) : digitsVal [c] = c.toNat - 48 := by simp [digitsVal]

theorem natDigitsAux_spec (fuel n : Nat) (h : n < 10 ^ (fuel + 1)) (acc : Str) :
    ∃ D : Str, natDigitsAux (fuel + 1) n acc = D ++ acc ∧ D ≠ [] ∧ (∀ c ∈ D, IsDigit c) ∧ digitsVal D = n ∧
      (n ≠ 0 → D.head? ≠ some 48) ∧ (n = 0 → D = [48]) := by
  induction fuel generalizing n acc with
  | zero =>
    have hn : n < 10 := by simpa using h
    refine ⟨[digitChar (n % 10)], ?_, by simp, ?_, ?_, ?_, ?_⟩
    · simp [natDigitsAux, hn]
    · intro c hc; simp only [List.mem_singleton] at hc; subst hc; exact digitChar_isDigit _ (by omega)
    · rw [digitsVal_single, digitChar_val _ (by omega)]; omega
    · have : ∀ d < 10, d ≠ 0 → digitChar (d % 10) ≠ 48 := by decide +kernel
      intro h0; simpa using this n hn h0
    · rintro rfl; decide +kernel
  | succ fuel ih =>
    by_cases hn : n < 10
    · refine ⟨[digitChar (n % 10)], ?_, by simp, ?_, ?_, ?_, ?_⟩
      · simp [natDigitsAux, hn]
      · intro c hc; simp only [List.mem_singleton] at hc; subst hc; exact digitChar_isDigit _ (by omega)
      · rw [digitsVal_single, digitChar_val _ (by omega)]; omega
      · have : ∀ d < 10, d ≠ 0 → digitChar (d % 10) ≠ 48 := by decide +kernel
        intro h0; simpa using this n hn h0
      · rintro rfl; decide +kernel
    · obtain ⟨D, h1, h2, h3, h4, h5, _⟩ := ih (n / 10) (by rw [pow_succ] at h; omega) (digitChar (n % 10) :: acc)
      refine ⟨D ++ [digitChar (n % 10)], ?_, by simp, ?_, ?_, ?_, ?_⟩
      · rw [natDigitsAux]
        simp only [hn, if_false, h1, List.append_assoc, List.singleton_append]
      · intro c hc
        rcases List.mem_append.1 hc with hc | hc
        · exact h3 c hc
        · simp only [List.mem_singleton] at hc; subst hc; exact digitChar_isDigit _ (by omega)
      · rw [digitsVal_append, h4, digitsVal_single, digitChar_val _ (by omega)]
        simp; omega
      · intro _
        rw [List.head?_append_of_ne_nil _ h2]
        exact h5 (by omega)
      · omega

theorem natStr_spec (n : Nat) : natStr n ≠ [] ∧ (∀ c ∈ natStr n, IsDigit c) ∧ digitsVal (natStr n) = n ∧
    (n ≠ 0 → (natStr n).head? ≠ some 48) ∧ (n = 0 → natStr n = [48]) := by
  have hlt : n < 10 ^ (Nat.log2 n + 1) := by
    calc n < 2 ^ (Nat.log2 n + 1) := Nat.lt_log2_self
      _ ≤ 10 ^ (Nat.log2 n + 1) := Nat.pow_le_pow_left (by omega) _
  obtain ⟨D, h1, h2, h3, h4, h5, h6⟩ := natDigitsAux_spec (Nat.log2 n) n hlt []
  rw [List.append_nil] at h1
  unfold natStr
  rw [h1]
  exact ⟨h2, h3, h4, h5, h6⟩

theorem isDigits_iff (s : Str) : isDigits s = true ↔ s ≠ [] ∧ ∀ c ∈ s, IsDigit c := by
  simp [isDigits, IsDigit]

theorem padDigits_spec (w n : Nat) : (padDigits w n).length = w ∧ (∀ c ∈ padDigits w n, IsDigit c) ∧
    digitsVal (padDigits w n) = n % 10 ^ w := by
  induction w generalizing n with
  | zero => simp [padDigits, digitsVal, Nat.mod_one]
  | succ w ih =>
    obtain ⟨h1, h2, h3⟩ := ih (n / 10)
    refine ⟨by simp [padDigits, h1], ?_, ?_⟩
    · intro c hc
      rw [padDigits] at hc
      rcases List.mem_append.1 hc with hc | hc
      · exact h2 c hc
      · simp only [List.mem_singleton] at hc; subst hc; exact digitChar_isDigit _ (by omega)
    · rw [padDigits, digitsVal_append, h3, digitsVal_single, digitChar_val _ (by omega)]
      simp only [List.length_singleton, pow_one]
      rw [pow_succ, Nat.mul_comm (10 ^ w) 10, Nat.mod_mul]
      omega

theorem isDigit_ne {c : UInt8} (h : IsDigit c) : c ≠ 46 ∧ c ≠ 45 ∧ c ≠ 10 ∧ c ≠ 58 ∧ c ≠ 124 ∧ c ≠ 32 := by
  obtain ⟨h1, h2⟩ := h
  rw [UInt8.le_iff_toNat_le] at h1 h2
  refine ⟨?_, ?_, ?_, ?_, ?_, ?_⟩ <;> (rintro rfl; revert h1 h2; decide)

theorem cut_none {sep : UInt8} {s : Str} (h : sep ∉ s) : cut sep s = none := by
  induction s with
  | nil => rfl
  | cons c t ih =>
    simp only [List.mem_cons, not_or] at h
    rw [cut, if_neg (Ne.symm h.1), ih h.2]; rfl

theorem cut_append {sep : UInt8} {a : Str} (h : sep ∉ a) (b : Str) : cut sep (a ++ sep :: b) = some (a, b) := by
  induction a with
  | nil => simp [cut]
  | cons c t ih =>
    simp only [List.mem_cons, not_or] at h
    rw [List.cons_append, cut, if_neg (Ne.symm h.1), ih h.2]; rfl

theorem fixedStr_parse (m prec : Nat) : parseUnsigned (fixedStr m prec) = some ((m : ℚ) / 10 ^ prec) := by
  obtain ⟨h1, h2, h3, _⟩ := natStr_spec (m / 10 ^ prec)
  have hdot : (46 : UInt8) ∉ natStr (m / 10 ^ prec) := fun h => (isDigit_ne (h2 _ h)).1 rfl
  unfold fixedStr parseUnsigned
  by_cases hp : prec = 0
  · subst hp
    simp only [if_true, List.append_nil]
    rw [cut_none hdot]
    simp only [(isDigits_iff _).2 ⟨h1, h2⟩, if_true, h3]
    simp
  · obtain ⟨g1, g2, g3⟩ := padDigits_spec prec m
    simp only [hp, if_false]
    rw [cut_append hdot]
    have hne : padDigits prec m ≠ [] := by
      intro h0; rw [h0] at g1; simp at g1; omega
    simp only [(isDigits_iff _).2 ⟨h1, h2⟩, (isDigits_iff _).2 ⟨hne, g2⟩, Bool.and_self, if_true, h3, g1, g3]
    congr 1
    have hpos : (0:ℚ) < 10 ^ prec := by positivity
    have := Nat.div_add_mod m (10 ^ prec)
    field_simp
    rw [mul_comm]
    exact_mod_cast this

theorem fixedStr_chars (m prec : Nat) : ∀ c ∈ fixedStr m prec, IsDigit c ∨ c = 46 := by
  intro c hc
  unfold fixedStr at hc
  rcases List.mem_append.1 hc with hc | hc
  · exact .inl ((natStr_spec _).2.1 c hc)
  · split at hc
    · simp at hc
    · rcases List.mem_cons.1 hc with hc | hc
      · exact .inr hc
      · exact .inl ((padDigits_spec _ _).2.1 c hc)

theorem fixedStr_head (m prec : Nat) : ∃ c t, fixedStr m prec = c :: t ∧ IsDigit c := by
  obtain ⟨h1, h2, _⟩ := natStr_spec (m / 10 ^ prec)
  unfold fixedStr
  cases h : natStr (m / 10 ^ prec) with
  | nil => exact absurd h h1
  | cons c t => exact ⟨c, _, rfl, h2 c (by rw [h]; simp)⟩

theorem parseDec_neg (s : Str) : parseDec (45 :: s) = (parseUnsigned s).map (fun q => -q) := rfl

theorem parseDec_pos {c : UInt8} {t : Str} (h : IsDigit c) : parseDec (c :: t) = parseUnsigned (c :: t) := by
  unfold parseDec
  split
  · next heq =>
    simp only [List.cons.injEq] at heq
    exact absurd heq.1 (isDigit_ne h).2.1
  · rfl

theorem parseDec_sign (neg : Bool) (m prec : Nat) :
    parseDec (signStr neg ++ fixedStr m prec) = some (if neg then -((m : ℚ) / 10 ^ prec) else (m : ℚ) / 10 ^ prec) := by
  cases neg with
  | true => simp [signStr, parseDec_neg, fixedStr_parse]
  | false =>
    obtain ⟨c, t, h1, h2⟩ := fixedStr_head m prec
    simp only [signStr, Bool.false_eq_true, if_false, List.nil_append]
    rw [h1, parseDec_pos h2, ← h1, fixedStr_parse]

theorem intStr_parse (n : Int) : parseDec (intStr n) = some (n : ℚ) := by
  have h : ∀ k : Nat, fixedStr k 0 = natStr k := by intro k; simp [fixedStr]
  unfold intStr
  by_cases hn : n < 0
  · have := parseDec_sign true n.natAbs 0
    simp only [signStr, if_true, h, List.singleton_append] at this
    rw [if_pos hn, this]
    congr 1
    have : n = -(n.natAbs : Int) := by omega
    conv_rhs => rw [this]
    push_cast; simp
  · have := parseDec_sign false n.natAbs 0
    simp only [signStr, Bool.false_eq_true, if_false, h, List.nil_append] at this
    rw [if_neg hn, this]
    congr 1
    have : n = (n.natAbs : Int) := by omega
    conv_rhs => rw [this]
    push_cast; simp

theorem roundEven_nonneg {q : ℚ} (h : 0 ≤ q) : 0 ≤ F64.roundEven q := by
  have : 0 ≤ ⌊q⌋ := Int.floor_nonneg.2 h
  unfold F64.roundEven
  simp only
  split
  · exact this
  · split
    · omega
    · split <;> omega

theorem roundEven_close (q : ℚ) : |(F64.roundEven q : ℚ) - q| ≤ 1 / 2 := by
  have h1 := Int.floor_le q
  have h2 := Int.lt_floor_add_one q
  unfold F64.roundEven
  simp only
  rw [abs_le]
  split
  · next h => constructor <;> linarith
  · next h =>
    split
    · next h' => push_cast; constructor <;> linarith
    · next h' =>
      have : q - ⌊q⌋ = 1 / 2 := le_antisymm (not_lt.1 h') (not_lt.1 h)
      split
      · constructor <;> linarith
      · push_cast; constructor <;> linarith

theorem roundNat_close {q : ℚ} (h : 0 ≤ q) : |(roundNat q : ℚ) - q| ≤ 1 / 2 := by
  have h0 := roundEven_nonneg h
  have : ((roundNat q : ℕ) : ℚ) = (F64.roundEven q : ℚ) := by
    unfold roundNat
    have := Int.toNat_of_nonneg h0
    exact_mod_cast this
  rw [this]
  exact roundEven_close q

/-- the text with `prec` decimals of a finite number reads back as a number within half a unit of the last place. -/
theorem fmtFixed_parse (v : F64) (hv : v.isFinite = true) (prec : Nat) :
    ∃ x : ℚ, parseDec (fmtFixed v prec) = some x ∧ |x - v.toRat| ≤ 1 / 2 / 10 ^ prec := by
  cases v with
  | nan => simp [F64.isFinite] at hv
  | inf s => simp [F64.isFinite] at hv
  | negZero =>
    refine ⟨_, parseDec_sign true 0 prec, ?_⟩
    simp only [F64.toRat, if_true, Nat.cast_zero, zero_div, neg_zero, sub_zero, abs_zero]
    positivity
  | fin q =>
    refine ⟨_, parseDec_sign (decide (q < 0)) (roundNat (|q| * 10 ^ prec)) prec, ?_⟩
    have hpos : (0:ℚ) < 10 ^ prec := by positivity
    have hc := roundNat_close (q := |q| * 10 ^ prec) (by positivity)
    have hm : abs ((roundNat (|q| * 10 ^ prec) : ℚ) / 10 ^ prec - abs q) ≤ 1 / 2 / 10 ^ prec := by
      have : (roundNat (|q| * 10 ^ prec) : ℚ) / 10 ^ prec - |q| = ((roundNat (|q| * 10 ^ prec) : ℚ) - |q| * 10 ^ prec) / 10 ^ prec := by
        field_simp
      rw [this, abs_div, abs_of_pos hpos]
      exact div_le_div_of_nonneg_right hc hpos.le
    simp only [F64.toRat]
    by_cases hq : q < 0
    · simp only [hq, decide_true, if_true]
      rw [abs_of_neg hq] at hm ⊢
      rw [show -((roundNat (-q * 10 ^ prec) : ℚ) / 10 ^ prec) - q = -((roundNat (-q * 10 ^ prec) : ℚ) / 10 ^ prec - -q) by ring, abs_neg]
      exact hm
    · simp only [hq, decide_false, Bool.false_eq_true, if_false]
      rw [abs_of_nonneg (not_lt.1 hq)] at hm ⊢
      exact hm

instance (s : Str) : Decidable (Clean s) := inferInstanceAs (Decidable (∀ c ∈ s, _))

theorem clean_of_digit {s : Str} (h : ∀ c ∈ s, IsDigit c ∨ c = 46 ∨ c = 45) : Clean s := by
  intro c hc
  rcases h c hc with h | h | h
  · obtain ⟨_, _, h3, h4, h5, _⟩ := isDigit_ne h; exact ⟨h3, h4, h5⟩
  · subst h; decide
  · subst h; decide

theorem clean_bs_nan : Clean (bs "NaN") := by decide +kernel
theorem clean_bs_inf : Clean (bs "+Inf") := by decide +kernel
theorem clean_bs_ninf : Clean (bs "-Inf") := by decide +kernel

theorem clean_sign (neg : Bool) (s : Str) (h : ∀ c ∈ s, IsDigit c ∨ c = 46) : Clean (signStr neg ++ s) := by
  apply clean_of_digit
  intro c hc
  rcases List.mem_append.1 hc with hc | hc
  · cases neg <;> simp [signStr] at hc; exact .inr (.inr hc)
  · rcases h c hc with h | h
    · exact .inl h
    · exact .inr (.inl h)

theorem intStr_clean (n : Int) : Clean (intStr n) := by
  have : intStr n = signStr (decide (n < 0)) ++ natStr n.natAbs := by
    unfold intStr; by_cases h : n < 0 <;> simp [signStr, h]
  rw [this]
  exact clean_sign _ _ (fun c hc => .inl ((natStr_spec _).2.1 c hc))

theorem fmtFixed_clean (v : F64) (prec : Nat) : Clean (fmtFixed v prec) := by
  unfold fmtFixed
  split
  · exact clean_bs_nan
  · split
    · exact clean_bs_ninf
    · exact clean_bs_inf
  · exact clean_sign _ _ (fixedStr_chars _ _)
  · exact clean_sign _ _ (fixedStr_chars _ _)

theorem decStr_chars (m : Nat) (d : ℤ) : ∀ c ∈ decStr m d, IsDigit c ∨ c = 46 := by
  unfold decStr
  split
  · intro c hc; exact .inl ((natStr_spec _).2.1 c hc)
  · exact fixedStr_chars _ _

theorem fmtShortest_clean (v : F64) : Clean (fmtShortest v) := by
  unfold fmtShortest
  split
  · exact clean_bs_nan
  · split
    · exact clean_bs_ninf
    · exact clean_bs_inf
  · decide +kernel
  · split
    · decide +kernel
    · exact clean_sign _ _ (decStr_chars _ _)
