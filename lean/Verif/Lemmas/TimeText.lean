import Verif.Model.TimeText
import Verif.Spec.TimeText
import Verif.Lemmas.Format
import Mathlib.Tactic.IntervalCases
/-!
# The RFC 3339 text of a time reads back as the same instant
-/
open Spec

theorem civilYear_spec (day : Int) : ∃ y yd, civilYear day = (y, yd) ∧
    365 * (y - 1) + (y - 1) / 4 - (y - 1) / 100 + (y - 1) / 400 + yd = day ∧ 0 ≤ yd ∧
    yd < 365 + (if isLeap y then 1 else 0) := by
  refine ⟨_, _, rfl, ?_⟩
  set a := day / 146097 with ha
  set d1 := day - 146097 * a with hd1
  have h1 : 0 ≤ d1 ∧ d1 < 146097 := by omega
  set b := d1 / 36524 - d1 / 36524 / 4 with hb
  have hb' : 0 ≤ b ∧ b ≤ 3 := by omega
  set d2 := d1 - 36524 * b with hd2
  have h2 : 0 ≤ d2 ∧ d2 ≤ 36524 ∧ (b ≤ 2 → d2 < 36524) := by omega
  set c := d2 / 1461 with hc
  have hc' : 0 ≤ c ∧ c ≤ 24 := by omega
  set d3 := d2 - 1461 * c with hd3
  have h3 : 0 ≤ d3 ∧ d3 < 1461 ∧ (c = 24 → b ≤ 2 → d3 < 1460) := by omega
  set e := d3 / 365 - d3 / 365 / 4 with he
  have he' : 0 ≤ e ∧ e ≤ 3 := by omega
  set d4 := d3 - 365 * e with hd4
  have h4 : 0 ≤ d4 ∧ d4 ≤ 365 ∧ (e ≤ 2 → d4 < 365) ∧ (c = 24 → b ≤ 2 → d4 < 365) := by omega
  have e1 : (400 * a + 100 * b + 4 * c + e + 1 - 1) / 4 = 100 * a + 25 * b + c := by omega
  have e2 : (400 * a + 100 * b + 4 * c + e + 1 - 1) / 100 = 4 * a + b := by omega
  have e3 : (400 * a + 100 * b + 4 * c + e + 1 - 1) / 400 = a := by omega
  refine ⟨by rw [e1, e2, e3]; omega, h4.1, ?_⟩
  split
  · omega
  · next hl =>
    by_contra hcon
    apply hl
    have h5 : d4 = 365 := by omega
    have h6 : e = 3 := by omega
    have h7 : ¬ (c = 24 ∧ b ≤ 2) := fun h => by have := h4.2.2.2 h.1 h.2; omega
    unfold isLeap
    simp only [Bool.and_eq_true, Bool.or_eq_true, decide_eq_true_eq, h6]
    refine ⟨by omega, ?_⟩
    by_cases hc24 : c = 24
    · right; omega
    · left; omega

theorem isLeap_nat (y : Nat) : isLeap y = leapYear y := by
  unfold isLeap leapYear
  by_cases h1 : y % 4 = 0 <;> by_cases h2 : y % 100 = 0 <;> by_cases h3 : y % 400 = 0 <;>
    simp [h1, h2, h3, show ((y:Int) % 4 = 0) ↔ (y % 4 = 0) by omega, show ((y:Int) % 100 = 0) ↔ (y % 100 = 0) by omega,
      show ((y:Int) % 400 = 0) ↔ (y % 400 = 0) by omega] <;> omega

theorem monthLength_congr {y y' : Nat} (h : leapYear y = leapYear y') (m : Nat) : monthLength y m = monthLength y' m := by
  unfold monthLength; rw [h]

theorem daysToMonth_congr {y y' : Nat} (h : leapYear y = leapYear y') (m : Nat) : daysToMonth y m = daysToMonth y' m := by
  induction m with
  | zero => rfl
  | succ m ih =>
    cases m with
    | zero => rfl
    | succ m => rw [daysToMonth, daysToMonth, ih, monthLength_congr h]

def monthCheck (leap : Bool) (y yd : Nat) : Bool :=
  let p := monthDay leap yd
  decide (1 ≤ p.1 ∧ p.1 ≤ 12 ∧ 1 ≤ p.2 ∧ p.2 ≤ monthLength y p.1.toNat ∧ (daysToMonth y p.1.toNat : Int) + p.2 - 1 = yd)

theorem monthDay_spec (y : Nat) (yd : Int) (h0 : 0 ≤ yd) (h1 : yd < 365 + (if isLeap y then 1 else 0)) :
    ∃ m d : Nat, monthDay (isLeap y) yd = ((m : Int), (d : Int)) ∧ 1 ≤ m ∧ m ≤ 12 ∧ 1 ≤ d ∧ d ≤ monthLength y m ∧
      (daysToMonth y m : Int) + d - 1 = yd := by
  have hc : ∀ n < 366, monthCheck true 2000 n = true := by decide +kernel
  have hc' : ∀ n < 365, monthCheck false 2001 n = true := by decide +kernel
  have key : ∀ (leap : Bool) (y' : Nat), leapYear y' = leapYear y → leap = isLeap y → monthCheck leap y' yd.toNat = true →
      ∃ m d : Nat, monthDay (isLeap y) yd = ((m : Int), (d : Int)) ∧ 1 ≤ m ∧ m ≤ 12 ∧ 1 ≤ d ∧ d ≤ monthLength y m ∧
      (daysToMonth y m : Int) + d - 1 = yd := by
    intro leap y' h2 h3 h4
    subst h3
    unfold monthCheck at h4
    have hyd : ((yd.toNat : Nat) : Int) = yd := Int.toNat_of_nonneg h0
    simp only [hyd, decide_eq_true_eq] at h4
    obtain ⟨g1, g2, g3, g4, g5⟩ := h4
    rw [monthLength_congr h2] at g4
    rw [daysToMonth_congr h2] at g5
    refine ⟨(monthDay (isLeap y) yd).1.toNat, (monthDay (isLeap y) yd).2.toNat, ?_, ?_⟩
    · rw [Int.toNat_of_nonneg (by omega), Int.toNat_of_nonneg (by omega)]
    · refine ⟨by omega, by omega, by omega, by omega, ?_⟩
      rw [Int.toNat_of_nonneg (by omega : 0 ≤ (monthDay (isLeap y) yd).2)]
      exact g5
  cases hl : isLeap y with
  | true =>
    rw [hl] at key h1
    exact key true 2000 (by rw [← isLeap_nat y, hl]; decide) rfl (hc _ (by simp at h1; omega))
  | false =>
    rw [hl] at key h1
    exact key false 2001 (by rw [← isLeap_nat y, hl]; decide) rfl (hc' _ (by simp at h1; omega))

theorem padNat_small {w n : Nat} (h : n < 10 ^ w) : padNat w n = padDigits w n := by unfold padNat; rw [if_pos h]

theorem readDigits_padNat {w n : Nat} (hw : w ≠ 0) (h : n < 10 ^ w) (s : Str) : readDigits w (padNat w n ++ s) = some (n, s) := by
  rw [padNat_small h]
  obtain ⟨h1, h2, h3⟩ := padDigits_spec w n
  have ht : (padDigits w n ++ s).take w = padDigits w n := List.take_left' h1
  have hd : (padDigits w n ++ s).drop w = s := List.drop_left' h1
  unfold readDigits
  rw [ht, hd, if_pos, h3, Nat.mod_eq_of_lt h]
  exact ⟨h1, (isDigits_iff _).2 ⟨by intro h0; rw [h0] at h1; simp at h1; omega, h2⟩⟩

theorem expect_cons (c : UInt8) (s : Str) : expect c (c :: s) = some s := by simp [expect]

theorem digitsVal_zeros (a z : Str) (hz : ∀ c ∈ z, c = 48) : digitsVal (a ++ z) = digitsVal a * 10 ^ z.length := by
  have : digitsVal z = 0 := by
    induction z with
    | nil => rfl
    | cons c t ih =>
      have := digitsVal_append [c] t
      rw [List.singleton_append] at this
      rw [this, ih (fun x hx => hz x (by simp [hx])), digitsVal_single, hz c (by simp)]
      simp
  rw [digitsVal_append, this, Nat.add_zero]

theorem readFrac_fracText (n : Nat) (h : n < 10 ^ 9) (s : Str) (hs : ∀ c ∈ s.head?, ¬ IsDigit c ∧ c ≠ 46) :
    readFrac (fracText n ++ s) = some (n, s) := by
  unfold fracText
  split
  · next h0 =>
    subst h0
    rw [List.nil_append]
    unfold readFrac
    split
    · exact absurd rfl (hs 46 (by simp)).2
    · rfl
  · next h0 =>
    obtain ⟨g1, g2, g3⟩ := padDigits_spec 9 n
    set D := padDigits 9 n with hD
    set T := (D.reverse.dropWhile (· = 48)).reverse with hT
    set Z := (D.reverse.takeWhile (· = 48)).reverse with hZ
    have hsplit : D = T ++ Z := by
      rw [hT, hZ, ← List.reverse_append, List.takeWhile_append_dropWhile, List.reverse_reverse]
    have hz : ∀ c ∈ Z, c = 48 := by
      intro c hc
      rw [hZ, List.mem_reverse] at hc
      have h48 := List.all_takeWhile (l := D.reverse) (p := (fun x => decide (x = 48)))
      rw [List.all_eq_true] at h48
      simpa using h48 c hc
    have hval : n = digitsVal T * 10 ^ Z.length := by
      rw [← digitsVal_zeros T Z hz, ← hsplit, g3, Nat.mod_eq_of_lt h]
    have hlen : T.length + Z.length = 9 := by rw [← List.length_append, ← hsplit, g1]
    have hTd : ∀ c ∈ T, IsDigit c := fun c hc => g2 c (by rw [hsplit]; simp [hc])
    have hTne : T ≠ [] := by
      intro he
      rw [he] at hval
      simp [digitsVal] at hval
      exact h0 hval
    have htw : (T ++ s).takeWhile (fun c => decide (48 ≤ c ∧ c ≤ 57)) = T := by
      rw [List.takeWhile_append_of_pos (fun (c : UInt8) hc => decide_eq_true (show 48 ≤ c ∧ c ≤ 57 from hTd c hc))]
      cases s with
      | nil => simp
      | cons c t =>
        have : ¬ (48 ≤ c ∧ c ≤ 57) := (hs c (by simp)).1
        rw [List.takeWhile_cons_of_neg (by simpa using this)]; simp
    have hTpos : 1 ≤ T.length := by
      cases hT' : T with
      | nil => exact absurd hT' hTne
      | cons _ _ => simp
    rw [List.cons_append]
    unfold readFrac
    simp only [htw]
    rw [if_pos hTpos, List.drop_left, List.take_of_length_le (by omega), show 9 - T.length = Z.length by omega, ← hval]

theorem readZone_zoneText (offset : Int) (h60 : offset % 60 = 0) (hlt : -86400 < offset ∧ offset < 86400) :
    readZone (zoneText offset) = some offset := by
  unfold zoneText
  split
  · next h => subst h; decide +kernel
  · next h0 =>
    simp only
    set z := Int.tdiv offset 60 with hz
    have hz' : offset = 60 * z := by
      have h1 := Int.mul_tdiv_add_tmod offset 60
      have h2 : offset.tmod 60 = 0 := by
        apply Int.tmod_eq_zero_of_dvd
        omega
      omega
    have hh : z.natAbs / 60 < 10 ^ 2 := by omega
    have hm : z.natAbs % 60 < 10 ^ 2 := by omega
    have hc : bs ":" = [58] := by decide +kernel
    have core : ∀ c : UInt8, readDigits 2 (c :: (padNat 2 (z.natAbs / 60) ++ ([58] ++ padNat 2 (z.natAbs % 60)))).tail =
        some (z.natAbs / 60, [58] ++ padNat 2 (z.natAbs % 60)) := fun c => by
      rw [List.tail_cons, readDigits_padNat (by omega) hh]
    have core2 : readDigits 2 (padNat 2 (z.natAbs % 60)) = some (z.natAbs % 60, []) := by
      have := readDigits_padNat (by omega : 2 ≠ 0) hm []
      rwa [List.append_nil] at this
    rw [hc]
    by_cases hn : z < 0
    · have e : bs "-" = [45] := by decide +kernel
      rw [if_pos hn, e]
      simp only [List.append_assoc, List.cons_append, List.nil_append]
      unfold readZone
      rw [if_neg (by simp)]
      simp only [List.head?_cons]
      have hsp := core 45
      simp only [List.cons_append, List.nil_append] at hsp
      rw [hsp]
      simp [expect_cons, core2]
      rw [abs_of_neg hn]
      omega
    · have e : bs "+" = [43] := by decide +kernel
      rw [if_neg hn, e]
      simp only [List.append_assoc, List.cons_append, List.nil_append]
      unfold readZone
      rw [if_neg (by simp)]
      simp only [List.head?_cons]
      have hsp := core 43
      simp only [List.cons_append, List.nil_append] at hsp
      rw [hsp]
      simp [expect_cons, core2]
      rw [abs_of_nonneg (not_lt.1 hn)]
      omega

theorem zoneText_head (offset : Int) : ∀ c ∈ (zoneText offset).head?, ¬ IsDigit c ∧ c ≠ 46 := by
  have e1 : bs "Z" = [90] := by decide +kernel
  have e2 : bs "-" = [45] := by decide +kernel
  have e3 : bs "+" = [43] := by decide +kernel
  have d1 : ¬ IsDigit 90 := by unfold IsDigit; decide
  have d2 : ¬ IsDigit 45 := by unfold IsDigit; decide
  have d3 : ¬ IsDigit 43 := by unfold IsDigit; decide
  intro c hc
  unfold zoneText at hc
  rw [e1, e2, e3] at hc
  split at hc
  · simp at hc; subst hc; exact ⟨d1, by decide⟩
  · simp only at hc
    split at hc
    · simp at hc; subst hc; exact ⟨d2, by decide⟩
    · simp at hc; subst hc; exact ⟨d3, by decide⟩

/-- the year of an instant has four digits. -/
def FourDigitYear (ns offset : Int) : Prop := 0 ≤ (clockOf ns offset).year ∧ (clockOf ns offset).year ≤ 9999

theorem readTime_rfc3339 (ns offset : Int) (hy : FourDigitYear ns offset) (h60 : offset % 60 = 0)
    (hlt : -86400 < offset ∧ offset < 86400) : readTime (rfc3339 ns offset) = some (ns, offset) := by
  obtain ⟨y, yd, hcy, hday, hyd0, hyd1⟩ := civilYear_spec ((ns / 1000000000 + offset) / 86400)
  unfold FourDigitYear clockOf at hy
  simp only [hcy] at hy
  obtain ⟨Y, rfl⟩ : ∃ Y : Nat, y = (Y : Int) := ⟨y.toNat, by omega⟩
  obtain ⟨m, d, hmd, hm1, hm2, hd1, hd2, hmday⟩ := monthDay_spec Y yd hyd0 hyd1
  have hd31 : d ≤ 31 := by
    refine le_trans hd2 ?_
    unfold monthLength
    split
    · split <;> omega
    · split <;> omega
  set S := (ns / 1000000000 + offset) with hS
  unfold rfc3339 clockOf
  simp only [hcy, hmd, ← hS, Int.natAbs_natCast, Int.toNat_natCast]
  have e1 : bs "-" = [45] := by decide +kernel
  have e2 : bs "T" = [84] := by decide +kernel
  have e3 : bs ":" = [58] := by decide +kernel
  rw [if_neg (by omega), e1, e2, e3]
  simp only [List.append_assoc, List.cons_append, List.nil_append]
  unfold readTime
  simp only [Option.bind_eq_bind]
  rw [readDigits_padNat (by omega : 4 ≠ 0) (show Y < 10 ^ 4 by omega), Option.bind_some]
  rw [expect_cons, Option.bind_some]
  rw [readDigits_padNat (by omega : 2 ≠ 0) (show m < 10 ^ 2 by omega), Option.bind_some]
  rw [expect_cons, Option.bind_some]
  rw [readDigits_padNat (by omega : 2 ≠ 0) (show d < 10 ^ 2 by omega), Option.bind_some]
  rw [expect_cons, Option.bind_some]
  rw [readDigits_padNat (by omega : 2 ≠ 0) (show (S % 86400 / 3600).toNat < 10 ^ 2 by omega), Option.bind_some]
  rw [expect_cons, Option.bind_some]
  rw [readDigits_padNat (by omega : 2 ≠ 0) (show (S % 86400 / 60 % 60).toNat < 10 ^ 2 by omega), Option.bind_some]
  rw [expect_cons, Option.bind_some]
  rw [readDigits_padNat (by omega : 2 ≠ 0) (show (S % 86400 % 60).toNat < 10 ^ 2 by omega), Option.bind_some]
  rw [readFrac_fracText (ns % 1000000000).toNat (by omega) _ (zoneText_head offset), Option.bind_some]
  rw [readZone_zoneText offset h60 hlt, Option.bind_some]
  rw [if_pos ⟨hm1, hm2, hd1, hd2, by omega, by omega, by omega⟩]
  have hD : daysToYear Y + yd = S / 86400 := by unfold daysToYear; exact hday
  have hfin : ((daysToYear Y + daysToMonth Y m + d - 1) * 86400 + ((S % 86400 / 3600).toNat : Int) * 3600 + ((S % 86400 / 60 % 60).toNat : Int) * 60 +
      ((S % 86400 % 60).toNat : Int) - offset) * 1000000000 + ((ns % 1000000000).toNat : Int) = ns := by omega
  rw [hfin]

/-- the zone is written as Z only for UTC. -/
theorem rfc3339_last (ns offset : Int) : (rfc3339 ns offset).getLast? = some 90 ↔ offset = 0 := by
  unfold rfc3339
  simp only
  rw [List.getLast?_append]
  unfold zoneText
  split
  · next h => subst h; simp [show bs "Z" = [90] by decide +kernel]
  · next h =>
    simp only [h, iff_false]
    obtain ⟨g1, g2, _⟩ := padDigits_spec 2 ((offset.tdiv 60).natAbs % 60)
    rw [padNat_small (show (offset.tdiv 60).natAbs % 60 < 10 ^ 2 by omega), List.getLast?_append]
    cases hl : (padDigits 2 ((offset.tdiv 60).natAbs % 60)).getLast? with
    | none => rw [List.getLast?_eq_none_iff] at hl; rw [hl] at g1; simp at g1
    | some c =>
      have := g2 c (List.mem_of_getLast? hl)
      simp only [Option.some_or]
      rintro ⟨rfl⟩
      revert this
      unfold IsDigit
      decide

theorem readDigits_append {w n : Nat} {s t : Str} (h : readDigits w s = some (n, t)) : ∃ p, s = p ++ t ∧ isDigits p = true ∧ p.length = w := by
  unfold readDigits at h
  split at h
  · next hd => cases h; exact ⟨s.take w, (List.take_append_drop w s).symm, hd.2, hd.1⟩
  · cases h
theorem expect_append {c : UInt8} {s t : Str} (h : expect c s = some t) : s = c :: t := by
  unfold expect at h
  split at h
  · next hd =>
    cases h
    cases s with
    | nil => cases hd
    | cons x y => simp only [List.head?_cons, Option.some.injEq] at hd; rw [hd]; rfl
  · cases h
theorem readFrac_append {n : Nat} {s t : Str} (h : readFrac s = some (n, t)) : ∃ p, s = p ++ t := by
  unfold readFrac at h
  split at h
  · next u =>
    simp only at h
    split at h
    · cases h
      exact ⟨46 :: u.take _, by rw [List.cons_append, List.take_append_drop]⟩
    · cases h
  · cases h; exact ⟨[], rfl⟩

/-- a zone written as Z is UTC. -/
theorem readZone_Z {s : Str} {off : Int} (h : readZone s = some off) : s ≠ [] ∧ (s.getLast? = some 90 → off = 0) := by
  unfold readZone at h
  split at h
  · next e => subst e; cases h; simp
  · next e =>
    have hz : s.head? ≠ none ∧ ∃ sign : Int, ((readDigits 2 s.tail).bind fun a => (expect 58 a.2).bind fun s2 => (readDigits 2 s2).bind fun b =>
        if b.2 = [] ∧ a.1 < 24 ∧ b.1 < 60 then some (sign * (a.1 * 3600 + b.1 * 60)) else none) = some off := by
      by_cases c1 : s.head? = some 43
      · rw [if_pos c1] at h; exact ⟨by rw [c1]; simp, 1, h⟩
      · rw [if_neg c1] at h
        by_cases c2 : s.head? = some 45
        · rw [if_pos c2] at h; exact ⟨by rw [c2]; simp, -1, h⟩
        · rw [if_neg c2] at h; cases h
    obtain ⟨h1, sign, hz⟩ := hz
    obtain ⟨⟨hh, s1⟩, h2, hz⟩ := Option.bind_eq_some_iff.1 hz
    obtain ⟨s2, h3, hz⟩ := Option.bind_eq_some_iff.1 hz
    obtain ⟨⟨m, s3⟩, h4, h5⟩ := Option.bind_eq_some_iff.1 hz
    simp only at h3 h4 h5
    split at h5
    · next h6 =>
      obtain ⟨p, e1, e2, e3⟩ := readDigits_append h2
      have e4 := expect_append h3
      obtain ⟨q, e5, e6, e7⟩ := readDigits_append h4
      rw [h6.1, List.append_nil] at e5
      subst e5 e4
      cases s with
      | nil => simp at h1
      | cons x y =>
        refine ⟨by simp, ?_⟩
        rw [List.tail_cons] at e1
        subst e1
        intro hl
        have hq : s2.getLast? = some 90 := by
          rw [← List.singleton_append (l := p ++ _), ← List.singleton_append (l := s2), List.getLast?_append, List.getLast?_append, List.getLast?_append] at hl
          cases hs : s2.getLast? with
          | none => rw [List.getLast?_eq_none_iff] at hs; rw [hs] at e7; simp at e7
          | some c => rw [hs] at hl; simpa using hl
        have := List.mem_of_getLast? hq
        unfold isDigits at e6
        rw [Bool.and_eq_true, List.all_eq_true] at e6
        exact absurd (e6.2 _ this) (by decide)
    · cases h5

theorem readTime_Z {text : Str} {ns off : Int} (h : readTime text = some (ns, off)) (hl : text.getLast? = some 90) : off = 0 := by
  unfold readTime at h
  obtain ⟨⟨y, s1⟩, h1, h⟩ := Option.bind_eq_some_iff.1 h
  obtain ⟨s2, h2, h⟩ := Option.bind_eq_some_iff.1 h
  obtain ⟨⟨mo, s3⟩, h3, h⟩ := Option.bind_eq_some_iff.1 h
  obtain ⟨s4, h4, h⟩ := Option.bind_eq_some_iff.1 h
  obtain ⟨⟨d, s5⟩, h5, h⟩ := Option.bind_eq_some_iff.1 h
  obtain ⟨s6, h6, h⟩ := Option.bind_eq_some_iff.1 h
  obtain ⟨⟨hr, s7⟩, h7, h⟩ := Option.bind_eq_some_iff.1 h
  obtain ⟨s8, h8, h⟩ := Option.bind_eq_some_iff.1 h
  obtain ⟨⟨mi, s9⟩, h9, h⟩ := Option.bind_eq_some_iff.1 h
  obtain ⟨s10, h10, h⟩ := Option.bind_eq_some_iff.1 h
  obtain ⟨⟨sec, s11⟩, h11, h⟩ := Option.bind_eq_some_iff.1 h
  obtain ⟨⟨fr, s12⟩, h12, h⟩ := Option.bind_eq_some_iff.1 h
  obtain ⟨o, h13, h⟩ := Option.bind_eq_some_iff.1 h
  have h14 := h
  obtain ⟨p1, e1, _⟩ := readDigits_append h1
  have e2 := expect_append h2
  obtain ⟨p3, e3, _⟩ := readDigits_append h3
  have e4 := expect_append h4
  obtain ⟨p5, e5, _⟩ := readDigits_append h5
  have e6 := expect_append h6
  obtain ⟨p7, e7, _⟩ := readDigits_append h7
  have e8 := expect_append h8
  obtain ⟨p9, e9, _⟩ := readDigits_append h9
  have e10 := expect_append h10
  obtain ⟨p11, e11, _⟩ := readDigits_append h11
  obtain ⟨p12, e12⟩ := readFrac_append h12
  obtain ⟨z1, z2⟩ := readZone_Z h13
  have hoff : o = off := by
    split at h14
    · cases h14; rfl
    · cases h14
  subst hoff
  apply z2
  have : ∃ p, text = p ++ s12 := by
    refine ⟨p1 ++ 45 :: (p3 ++ 45 :: (p5 ++ 84 :: (p7 ++ 58 :: (p9 ++ 58 :: (p11 ++ p12))))), ?_⟩
    rw [e1, e2, e3, e4, e5, e6, e7, e8, e9, e10, e11, e12]
    simp
  obtain ⟨p, rfl⟩ := this
  rw [List.getLast?_append] at hl
  cases hs : s12.getLast? with
  | none => rw [List.getLast?_eq_none_iff] at hs; exact absurd hs z1
  | some c => rw [hs] at hl; simpa using hl

theorem timeJSON_some {ns offset : Int} {s : Str} (h : timeJSON ns offset = some s) : FourDigitYear ns offset ∧ s = rfc3339 ns offset := by
  unfold timeJSON at h
  simp only at h
  split at h
  · next hy => simp only [Option.some.injEq] at h; exact ⟨hy, h.symm⟩
  · cases h

/-- different instants, or the same one at different whole-minute offsets, have different texts. -/
theorem rfc3339_inj {ns ns' off off' : Int} (hy : FourDigitYear ns off) (hy' : FourDigitYear ns' off') (h60 : off % 60 = 0)
    (h60' : off' % 60 = 0) (hlt : -86400 < off ∧ off < 86400) (hlt' : -86400 < off' ∧ off' < 86400)
    (h : rfc3339 ns off = rfc3339 ns' off') : ns = ns' ∧ off = off' := by
  have h1 := readTime_rfc3339 ns off hy h60 hlt
  rw [h, readTime_rfc3339 ns' off' hy' h60' hlt'] at h1
  simp only [Option.some.injEq, Prod.mk.injEq] at h1
  exact ⟨h1.1.symm, h1.2.symm⟩
