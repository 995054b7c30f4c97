import Verif.Spec.Utf8
import Verif.Model.Utf8
import Verif.Lemmas.Json
/-!
# The decoder of the model accepts exactly the UTF-8 texts
-/
open Spec

theorem u8_toNat {n : Nat} (h : n < 256) : (UInt8.ofNat n).toNat = n := by
  rw [UInt8.toNat_ofNat']; exact Nat.mod_eq_of_lt h

theorem isCont_iff (b : UInt8) : isCont b = true ↔ 128 ≤ b.toNat ∧ b.toNat ≤ 191 := by
  unfold isCont
  simp [UInt8.le_iff_toNat_le]

theorem isTwo_iff (a b : UInt8) : isTwo a b = true ↔ (194 ≤ a.toNat ∧ a.toNat ≤ 223) ∧ 128 ≤ b.toNat ∧ b.toNat ≤ 191 := by
  unfold isTwo
  rw [Bool.and_eq_true, isCont_iff]
  simp [UInt8.le_iff_toNat_le]

theorem isThree_iff (a b c : UInt8) : isThree a b c = true ↔
    ((a.toNat = 224 ∧ 160 ≤ b.toNat ∧ b.toNat ≤ 191) ∨ ((225 ≤ a.toNat ∧ a.toNat ≤ 236) ∧ 128 ≤ b.toNat ∧ b.toNat ≤ 191) ∨
     (a.toNat = 237 ∧ 128 ≤ b.toNat ∧ b.toNat ≤ 159) ∨ ((238 ≤ a.toNat ∧ a.toNat ≤ 239) ∧ 128 ≤ b.toNat ∧ b.toNat ≤ 191)) ∧
    128 ≤ c.toNat ∧ c.toNat ≤ 191 := by
  unfold isThree
  simp only [Bool.and_eq_true, Bool.or_eq_true, isCont_iff, decide_eq_true_eq, UInt8.le_iff_toNat_le, ← UInt8.toNat_inj]
  simp [or_assoc]

theorem isFour_iff (a b c d : UInt8) : isFour a b c d = true ↔
    ((a.toNat = 240 ∧ 144 ≤ b.toNat ∧ b.toNat ≤ 191) ∨ ((241 ≤ a.toNat ∧ a.toNat ≤ 243) ∧ 128 ≤ b.toNat ∧ b.toNat ≤ 191) ∨
     (a.toNat = 244 ∧ 128 ≤ b.toNat ∧ b.toNat ≤ 143)) ∧ (128 ≤ c.toNat ∧ c.toNat ≤ 191) ∧ 128 ≤ d.toNat ∧ d.toNat ≤ 191 := by
  unfold isFour
  simp only [Bool.and_eq_true, Bool.or_eq_true, isCont_iff, decide_eq_true_eq, UInt8.le_iff_toNat_le, ← UInt8.toNat_inj]
  simp [or_assoc, and_assoc]

/-- one rune is read for every scalar value. -/
theorem runes_utf8 {n : Nat} (hn : Scalar n) (rest : Str) :
    ∃ r, runes (utf8 n ++ rest) = r :: runes rest ∧ r.bytes = utf8 n ∧ ∀ b, r ≠ .bad b := by
  unfold Scalar at hn
  unfold utf8
  split
  · next h =>
    refine ⟨.ascii (UInt8.ofNat n), ?_, rfl, by simp⟩
    rw [List.cons_append, List.nil_append, runes.eq_def]
    simp only
    rw [if_pos]
    rw [UInt8.lt_iff_toNat_lt, u8_toNat (by omega)]
    exact h
  · next h1 =>
    split
    · next h2 =>
      have a0 := u8_toNat (n := 0xC0 + n / 64) (by omega)
      have a1 := u8_toNat (n := 0x80 + n % 64) (by omega)
      refine ⟨.multi [UInt8.ofNat (0xC0 + n / 64), UInt8.ofNat (0x80 + n % 64)], ?_, rfl, by simp⟩
      rw [List.cons_append, List.cons_append, List.nil_append, runes.eq_def]
      simp only
      rw [if_neg (by rw [UInt8.lt_iff_toNat_lt, a0]; change ¬ _ < 128; omega), if_pos (by rw [isTwo_iff, a0, a1]; omega)]
    · next h2 =>
      split
      · next h3 =>
        have a0 := u8_toNat (n := 0xE0 + n / 4096) (by omega)
        have a1 := u8_toNat (n := 0x80 + n / 64 % 64) (by omega)
        have a2 := u8_toNat (n := 0x80 + n % 64) (by omega)
        refine ⟨.multi [UInt8.ofNat (0xE0 + n / 4096), UInt8.ofNat (0x80 + n / 64 % 64), UInt8.ofNat (0x80 + n % 64)], ?_, rfl, by simp⟩
        rw [List.cons_append, List.cons_append, List.cons_append, List.nil_append, runes.eq_def]
        simp only
        rw [if_neg (by rw [UInt8.lt_iff_toNat_lt, a0]; change ¬ _ < 128; omega), if_neg (by rw [isTwo_iff, a0, a1]; omega),
          if_pos (by rw [isThree_iff, a0, a1, a2]; omega)]
      · next h3 =>
        have a0 := u8_toNat (n := 0xF0 + n / 262144) (by omega)
        have a1 := u8_toNat (n := 0x80 + n / 4096 % 64) (by omega)
        have a2 := u8_toNat (n := 0x80 + n / 64 % 64) (by omega)
        have a3 := u8_toNat (n := 0x80 + n % 64) (by omega)
        refine ⟨.multi [UInt8.ofNat (0xF0 + n / 262144), UInt8.ofNat (0x80 + n / 4096 % 64), UInt8.ofNat (0x80 + n / 64 % 64),
          UInt8.ofNat (0x80 + n % 64)], ?_, rfl, by simp⟩
        rw [List.cons_append, List.cons_append, List.cons_append, List.cons_append, List.nil_append, runes.eq_def]
        simp only
        rw [if_neg (by rw [UInt8.lt_iff_toNat_lt, a0]; change ¬ _ < 128; omega), if_neg (by rw [isTwo_iff, a0, a1]; omega),
          if_neg (by rw [isThree_iff, a0, a1, a2]; omega), if_pos (by rw [isFour_iff, a0, a1, a2, a3]; omega)]

theorem validUtf8_of_isUtf8 {s : Str} (h : IsUtf8 s) : validUtf8 s = true := by
  obtain ⟨cps, hc, rfl⟩ := h
  unfold validUtf8
  induction cps with
  | nil => rw [List.flatMap_nil, runes]; rfl
  | cons n t ih =>
    rw [List.flatMap_cons]
    obtain ⟨r, h1, _, h3⟩ := runes_utf8 (hc n (by simp)) (t.flatMap utf8)
    rw [h1, List.all_cons, ih (fun m hm => hc m (by simp [hm])), Bool.and_true]
    cases r with
    | bad b => exact absurd rfl (h3 b)
    | _ => rfl

/-- the bytes of a good rune are the UTF-8 of a scalar value. -/
theorem rune_scalar {s : Str} {r : Rune} (hr : r ∈ runes s) (hb : ∀ b, r ≠ .bad b) : ∃ n, Scalar n ∧ r.bytes = utf8 n := by
  induction s using runes.induct with
  | case1 => rw [runes] at hr; simp at hr
  | case2 b0 t hlt ih =>
    rw [runes.eq_def] at hr
    simp only [if_pos hlt] at hr
    rcases List.mem_cons.1 hr with rfl | hr
    · rw [UInt8.lt_iff_toNat_lt] at hlt
      change b0.toNat < 128 at hlt
      refine ⟨b0.toNat, .inl (by omega), ?_⟩
      unfold utf8
      rw [if_pos (by omega)]
      simp [Rune.bytes]
    · exact ih hr
  | case3 b0 hlt =>
    rw [runes.eq_def] at hr
    simp only [if_neg hlt] at hr
    simp only [List.mem_singleton] at hr
    exact absurd hr (hb b0)
  | case4 b0 hlt b1 t1 h2 ih =>
    rw [runes.eq_def] at hr
    simp only [if_neg hlt, if_pos h2] at hr
    rcases List.mem_cons.1 hr with rfl | hr
    · rw [isTwo_iff] at h2
      refine ⟨(b0.toNat - 0xC0) * 64 + (b1.toNat - 0x80), .inl (by omega), ?_⟩
      unfold utf8
      rw [if_neg (by omega), if_pos (by omega)]
      simp only [Rune.bytes, List.cons.injEq, and_true]
      constructor <;> (rw [← UInt8.toNat_inj, u8_toNat (by omega)]; omega)
    · exact ih hr
  | case5 b0 hlt b1 h2 ih =>
    rw [runes.eq_def] at hr
    simp only [if_neg hlt, if_neg h2] at hr
    rcases List.mem_cons.1 hr with rfl | hr
    · exact absurd rfl (hb b0)
    · exact ih hr
  | case6 b0 hlt b1 h2 b2 t2 h3 ih =>
    rw [runes.eq_def] at hr
    simp only [if_neg hlt, if_neg h2, if_pos h3] at hr
    rcases List.mem_cons.1 hr with rfl | hr
    · rw [isThree_iff] at h3
      refine ⟨(b0.toNat - 0xE0) * 4096 + (b1.toNat - 0x80) * 64 + (b2.toNat - 0x80), ?_, ?_⟩
      · unfold Scalar; omega
      · unfold utf8
        rw [if_neg (by omega), if_neg (by omega), if_pos (by omega)]
        simp only [Rune.bytes, List.cons.injEq, and_true]
        refine ⟨?_, ?_, ?_⟩ <;> (rw [← UInt8.toNat_inj, u8_toNat (by omega)]; omega)
    · exact ih hr
  | case7 b0 hlt b1 h2 b2 h3 ih =>
    rw [runes.eq_def] at hr
    simp only [if_neg hlt, if_neg h2, if_neg h3] at hr
    rcases List.mem_cons.1 hr with rfl | hr
    · exact absurd rfl (hb b0)
    · exact ih hr
  | case8 b0 hlt b1 h2 b2 h3 b3 t3 h4 ih =>
    rw [runes.eq_def] at hr
    simp only [if_neg hlt, if_neg h2, if_neg h3, if_pos h4] at hr
    rcases List.mem_cons.1 hr with rfl | hr
    · rw [isFour_iff] at h4
      refine ⟨(b0.toNat - 0xF0) * 262144 + (b1.toNat - 0x80) * 4096 + (b2.toNat - 0x80) * 64 + (b3.toNat - 0x80), ?_, ?_⟩
      · unfold Scalar; omega
      · unfold utf8
        rw [if_neg (by omega), if_neg (by omega), if_neg (by omega)]
        simp only [Rune.bytes, List.cons.injEq, and_true]
        refine ⟨?_, ?_, ?_, ?_⟩ <;> (rw [← UInt8.toNat_inj, u8_toNat (by omega)]; omega)
    · exact ih hr
  | case9 b0 hlt b1 h2 b2 h3 b3 t3 h4 ih =>
    rw [runes.eq_def] at hr
    simp only [if_neg hlt, if_neg h2, if_neg h3, if_neg h4] at hr
    rcases List.mem_cons.1 hr with rfl | hr
    · exact absurd rfl (hb b0)
    · exact ih hr

/-- the model's decoder finds no ill-formed byte exactly in UTF-8 texts. -/
theorem validUtf8_iff (s : Str) : validUtf8 s = true ↔ IsUtf8 s := by
  refine ⟨fun h => ?_, validUtf8_of_isUtf8⟩
  unfold validUtf8 at h
  rw [List.all_eq_true] at h
  have key : ∀ l : List Rune, (∀ r ∈ l, ∃ n, Scalar n ∧ r.bytes = utf8 n) → ∃ cps : List Nat, (∀ n ∈ cps, Scalar n) ∧ l.flatMap Rune.bytes = cps.flatMap utf8 := by
    intro l hl
    induction l with
    | nil => exact ⟨[], by simp, rfl⟩
    | cons r t ih =>
      obtain ⟨n, h1, h2⟩ := hl r (by simp)
      obtain ⟨cps, h3, h4⟩ := ih (fun r hr => hl r (by simp [hr]))
      refine ⟨n :: cps, ?_, ?_⟩
      · intro m hm
        rcases List.mem_cons.1 hm with rfl | hm
        · exact h1
        · exact h3 m hm
      · rw [List.flatMap_cons, List.flatMap_cons, h2, h4]
  obtain ⟨cps, h1, h2⟩ := key (runes s) (fun r hr => rune_scalar hr (by
    rintro b rfl
    have := h _ hr
    simp at this))
  exact ⟨cps, h1, by rw [← h2, runes_bytes]⟩

theorem fixUtf8_of_utf8 {s : Str} (h : IsUtf8 s) : fixUtf8 s = s := fixUtf8_of_valid (validUtf8_of_isUtf8 h)
