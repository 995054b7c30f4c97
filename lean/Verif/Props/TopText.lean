import Verif.Spec.TopText
import Verif.Model.TopText
import Verif.Lemmas.TimeText
import Verif.Lemmas.Json
import Verif.Props.Healthtop
/-!
# C106, C107: the text on healthtop's screen
-/
open Spec Spec.Screen Api Healthd Healthtop Unmarshal

namespace TopText

/-! ## Times -/

theorem leap_iff (y : Nat) : leapYear y = true ↔ (y % 4 = 0 ∧ y % 100 ≠ 0) ∨ y % 400 = 0 := by
  unfold leapYear; simp

theorem zeller_days (y m d : Nat) (h1 : 1 ≤ m) (h2 : m ≤ 12) :
    (daysToYear y + daysToMonth y m + d + 1) % 7 = zeller y m d := by
  -- the leap years up to this one
  have hl : ((y + 400) / 4 : Nat) - ((y + 400) / 100 : Nat) + ((y + 400) / 400 : Nat) =
      ((y : Int) - 1) / 4 - ((y : Int) - 1) / 100 + ((y : Int) - 1) / 400 + 97 + (if leapYear y = true then 1 else 0) := by
    have k1 : (((y + 400) / 4 : Nat) : Int) = ((y : Int) - 1) / 4 + 100 + (if y % 4 = 0 then 1 else 0) := by split <;> omega
    have k2 : (((y + 400) / 100 : Nat) : Int) = ((y : Int) - 1) / 100 + 4 + (if y % 100 = 0 then 1 else 0) := by split <;> omega
    have k3 : (((y + 400) / 400 : Nat) : Int) = ((y : Int) - 1) / 400 + 1 + (if y % 400 = 0 then 1 else 0) := by split <;> omega
    rw [k1, k2, k3]
    have k4 : (if y % 4 = 0 then (1 : Int) else 0) - (if y % 100 = 0 then 1 else 0) + (if y % 400 = 0 then 1 else 0) = if leapYear y = true then 1 else 0 := by
      simp only [leap_iff]
      by_cases h4 : y % 4 = 0 <;> by_cases h100 : y % 100 = 0 <;> by_cases h400 : y % 400 = 0 <;> simp [h4, h100, h400] <;> omega
    rw [← k4]; ring
  have j1 : (((y + 399) / 4 : Nat) : Int) = ((y : Int) - 1) / 4 + 100 := by omega
  have j2 : (((y + 399) / 100 : Nat) : Int) = ((y : Int) - 1) / 100 + 4 := by omega
  have j3 : (((y + 399) / 400 : Nat) : Int) = ((y : Int) - 1) / 400 + 1 := by omega
  have c1 : (y + 400) / 100 ≤ y + 400 := Nat.div_le_self _ _
  have c2 : (y + 399) / 100 ≤ y + 399 := Nat.div_le_self _ _
  have hz : zeller y m d = if m ≤ 2 then (d + 13 * (m + 12 + 1) / 5 + (y + 399) + (y + 399) / 4 - (y + 399) / 100 + (y + 399) / 400) % 7
      else (d + 13 * (m + 1) / 5 + (y + 400) + (y + 400) / 4 - (y + 400) / 100 + (y + 400) / 400) % 7 := by
    unfold zeller
    split <;> rfl
  rw [hz]
  unfold daysToYear
  clear hz
  generalize (y + 400) / 4 = a1 at *
  generalize (y + 400) / 100 = a2 at *
  generalize (y + 400) / 400 = a3 at *
  generalize (y + 399) / 4 = b1 at *
  generalize (y + 399) / 100 = b2 at *
  generalize (y + 399) / 400 = b3 at *
  generalize ((y : Int) - 1) / 4 = e1 at *
  generalize ((y : Int) - 1) / 100 = e2 at *
  generalize ((y : Int) - 1) / 400 = e3 at *
  cases hy : leapYear y
  · rw [hy] at hl
    interval_cases m <;> simp [daysToMonth, monthLength, hy] at hl ⊢ <;> omega
  · rw [hy] at hl
    interval_cases m <;> simp [daysToMonth, monthLength, hy] at hl ⊢ <;> omega

theorem readName_day (w : Nat) (h : w < 7) (s : Str) : readName dayNames (shortDayNames.getD w [] ++ s) = some (w, s) := by
  have : ∀ w < 7, (shortDayNames.getD w []).length = 3 ∧ shortDayNames.getD w [] ∈ dayNames ∧ dayNames.idxOf (shortDayNames.getD w []) = w := by decide +kernel
  obtain ⟨h1, h2, h3⟩ := this w h
  unfold readName
  rw [List.take_left' h1, List.drop_left' h1, if_pos h2, h3]

theorem readName_month (w : Nat) (h : w < 12) (s : Str) : readName monthNames (shortMonthNames.getD w [] ++ s) = some (w, s) := by
  have : ∀ w < 12, (shortMonthNames.getD w []).length = 3 ∧ shortMonthNames.getD w [] ∈ monthNames ∧ monthNames.idxOf (shortMonthNames.getD w []) = w := by decide +kernel
  obtain ⟨h1, h2, h3⟩ := this w h
  unfold readName
  rw [List.take_left' h1, List.drop_left' h1, if_pos h2, h3]

theorem readDate_text (w d mo y : Nat) (hw : w < 7) (hd : d < 100) (hm : mo < 12) (hy : y < 10000) (s : Str) :
    readDate (shortDayNames.getD w [] ++ (44 :: 32 :: (padNat 2 d ++ (32 :: (shortMonthNames.getD mo [] ++ (32 :: (padNat 4 y ++ (32 :: s)))))))) =
      some ((w, y, mo, d), s) := by
  unfold readDate
  simp only [Option.bind_eq_bind]
  rw [readName_day _ hw, Option.bind_some]
  rw [expect_cons, Option.bind_some]
  rw [expect_cons, Option.bind_some]
  rw [readDigits_padNat (by omega : 2 ≠ 0) (show d < 10 ^ 2 by omega), Option.bind_some]
  rw [expect_cons, Option.bind_some]
  rw [readName_month _ hm, Option.bind_some]
  rw [expect_cons, Option.bind_some]
  rw [readDigits_padNat (by omega : 4 ≠ 0) (show y < 10 ^ 4 by omega), Option.bind_some]
  rw [expect_cons, Option.bind_some]

theorem readClock_text (h mi sec : Nat) (hh : h < 100) (hm : mi < 100) (hs : sec < 100) (s : Str) :
    readClock (padNat 2 h ++ (58 :: (padNat 2 mi ++ (58 :: (padNat 2 sec ++ (32 :: s)))))) = some ((h, mi, sec), s) := by
  unfold readClock
  simp only [Option.bind_eq_bind]
  rw [readDigits_padNat (by omega : 2 ≠ 0) (show h < 10 ^ 2 by omega), Option.bind_some]
  rw [expect_cons, Option.bind_some]
  rw [readDigits_padNat (by omega : 2 ≠ 0) (show mi < 10 ^ 2 by omega), Option.bind_some]
  rw [expect_cons, Option.bind_some]
  rw [readDigits_padNat (by omega : 2 ≠ 0) (show sec < 10 ^ 2 by omega), Option.bind_some]
  rw [expect_cons, Option.bind_some]

theorem readTime_rfc1123 (name : Str) (ns offset : Int) (hy : FourDigitYear ns offset) :
    Screen.readTime (rfc1123 name ns offset) = some (ns / 1000000000 + offset, zoneAbbr name offset) := by
  obtain ⟨y, yd, hcy, hday, hyd0, hyd1⟩ := civilYear_spec ((ns / 1000000000 + offset) / 86400)
  unfold FourDigitYear clockOf at hy
  simp only [hcy] at hy
  obtain ⟨Y, rfl⟩ : ∃ Y : Nat, y = (Y : Int) := ⟨y.toNat, by omega⟩
  obtain ⟨m, d, hmd, hm1, hm2, hd1, hd2, hmday⟩ := monthDay_spec Y yd hyd0 hyd1
  have hd31 : d ≤ 31 := by
    refine le_trans hd2 ?_
    unfold monthLength
    split
    · split <;> omega
    · split <;> omega
  set S := (ns / 1000000000 + offset) with hS
  have hD : daysToYear Y + yd = S / 86400 := by unfold daysToYear; exact hday
  have hw : weekdayIndex (S / 86400) < 7 := by unfold weekdayIndex; omega
  have hz := zeller_days Y m d hm1 hm2
  unfold rfc1123 clockOf
  simp only [hcy, hmd, ← hS, Int.natAbs_natCast, Int.toNat_natCast]
  have e1 : bs ", " = [44, 32] := by decide +kernel
  have e2 : bs " " = [32] := by decide +kernel
  have e3 : bs ":" = [58] := by decide +kernel
  rw [if_neg (by omega), e1, e2, e3]
  simp only [List.append_assoc, List.cons_append, List.nil_append]
  unfold Screen.readTime
  rw [readDate_text _ d (m - 1) Y hw (by omega) (by omega) (by omega), Option.bind_eq_bind, Option.bind_some]
  dsimp only
  rw [readClock_text _ _ _ (by omega) (by omega) (by omega), Option.bind_eq_bind, Option.bind_some]
  dsimp only
  rw [show m - 1 + 1 = m by omega]
  rw [if_pos ⟨hd1, hd2, by omega, by omega, by omega, by unfold weekdayIndex; omega⟩]
  congr 2
  omega

theorem readOffset_cons (c : UInt8) (k : Int) (hc : (c = 43 ∧ k = 1) ∨ (c = 45 ∧ k = -1)) (h m : Nat) (hh : h < 24) (hm : m < 60) :
    readOffset (c :: (padNat 2 h ++ padNat 2 m)) = some (k * (h * 3600 + m * 60)) := by
  have hd1 := readDigits_padNat (w := 2) (n := h) (by omega) (by omega) (padNat 2 m)
  have hd2 := readDigits_padNat (w := 2) (n := m) (by omega) (by omega) []
  rw [List.append_nil] at hd2
  rcases hc with ⟨rfl, rfl⟩ | ⟨rfl, rfl⟩ <;> simp [readOffset, hd1, hd2, hh, hm]

theorem readOffset_abbr (offset : Int) (h60 : offset % 60 = 0) (hlt : -86400 < offset ∧ offset < 86400) :
    readOffset (zoneAbbr [] offset) = some offset := by
  have et : offset.tdiv 60 = offset / 60 := Int.tdiv_eq_ediv_of_dvd (by omega)
  have e1 : bs "-" = [45] := by decide +kernel
  have e2 : bs "+" = [43] := by decide +kernel
  unfold zoneAbbr
  rw [if_neg (by simp), et, e1, e2]
  dsimp only
  split
  · have := readOffset_cons 45 (-1) (.inr ⟨rfl, rfl⟩) ((offset / 60).natAbs / 60) ((offset / 60).natAbs % 60) (by omega) (by omega)
    simp only [List.cons_append, List.nil_append]
    rw [this]; congr 1; omega
  · have := readOffset_cons 43 1 (.inl ⟨rfl, rfl⟩) ((offset / 60).natAbs / 60) ((offset / 60).natAbs % 60) (by omega) (by omega)
    simp only [List.cons_append, List.nil_append]
    rw [this]; congr 1; omega

/-- C107: a time on the screen reads back as the date and the time of day of its zone, to the second, and the day of the week is right; the zone is
given by its abbreviation if it has one, else by its offset. -/
theorem C107_text (name : Str) (ns offset : Int) (hy : FourDigitYear ns offset) :
    (name ≠ [] → Screen.readTime (rfc1123 name ns offset) = some (ns / 1000000000 + offset, name)) ∧
    (offset % 60 = 0 → -86400 < offset ∧ offset < 86400 → name = [] → readInstant (rfc1123 name ns offset) = some (ns / 1000000000)) ∧
    (offset = 0 → name = bs "UTC" → readInstant (rfc1123 name ns offset) = some (ns / 1000000000)) := by
  refine ⟨fun h => ?_, fun h60 hlt h => ?_, fun h0 h => ?_⟩
  · rw [readTime_rfc1123 name ns offset hy]
    unfold zoneAbbr; rw [if_pos h]
  · subst h
    unfold readInstant
    rw [readTime_rfc1123 [] ns offset hy]
    simp only [Option.bind_eq_bind, Option.bind_some]
    unfold Screen.readZone
    rw [if_neg, readOffset_abbr offset h60 hlt, Option.bind_some]
    · congr 1; omega
    · intro hu
      have := readOffset_abbr offset h60 hlt
      rw [hu] at this
      have hn : readOffset [85, 84, 67] = none := by decide +kernel
      rw [hn] at this
      simp at this
  · subst h h0
    unfold readInstant
    rw [readTime_rfc1123 _ ns 0 hy]
    simp only [Option.bind_eq_bind, Option.bind_some]
    have e : zoneAbbr (bs "UTC") 0 = [85, 84, 67] := by decide +kernel
    unfold Screen.readZone
    rw [e, if_pos rfl, Option.bind_some]
    congr 1; omega

/-- not C107: an abbreviation need not tell the instant: noon in Shanghai and noon in Chicago, fourteen hours later, look the same. -/
theorem C107_false : rfc1123 (bs "CST") ((62135596800 + 1447560000 - 28800) * 1000000000) 28800 =
    rfc1123 (bs "CST") ((62135596800 + 1447560000 + 21600) * 1000000000) (-21600) := by decide +kernel

/-- the zones healthtop gets by reading times: UTC, its own, the unnamed ones that Go keeps, and one made for the offset `off`. -/
structure ReadZones (lo : Int → Int) (fresh : Nat) (off : Int) (z : Zones) : Prop where
  utc : ∀ ns, z.name 0 ns = bs "UTC" ∧ z.offset 0 ns = 0
  here : ∀ ns, z.offset 1 ns = lo ns
  kept : ∀ k ns, k < 27 → z.name (2 + k) ns = [] ∧ z.offset (2 + k) ns = ((k : Int) - 12) * 3600
  made : ∀ ns, z.name (29 + fresh) ns = [] ∧ z.offset (29 + fresh) ns = off

theorem offset_locOf {lo : Int → Int} {fresh : Nat} {off : Int} {z : Zones} (hz : ReadZones lo fresh off z) (ns : Int) :
    let loc := locOf lo fresh (decide (off = 0)) ns off
    z.offset loc ns = off ∧ ((lo ns ≠ off ∨ off = 0) → z.name loc ns = if off = 0 then bs "UTC" else []) := by
  intro loc
  by_cases h0 : off = 0
  · have e : loc = 0 := by simp [loc, locOf, h0]
    rw [e, (hz.utc ns).1, (hz.utc ns).2, if_pos h0]
    exact ⟨h0.symm, fun _ => rfl⟩
  · by_cases h1 : lo ns = off
    · have e : loc = 1 := by simp [loc, locOf, h0, h1]
      rw [e, hz.here ns, h1]
      exact ⟨rfl, fun h => by simp [h0] at h⟩
    · by_cases h2 : off % 3600 = 0 ∧ -43200 ≤ off ∧ off ≤ 50400
      · have e : loc = 2 + (off / 3600 + 12).toNat := by simp [loc, locOf, h0, h1, h2]
        obtain ⟨k1, k2⟩ := hz.kept (off / 3600 + 12).toNat ns (by omega)
        rw [e, k1, k2, if_neg h0]
        exact ⟨by omega, fun _ => rfl⟩
      · have e : loc = 29 + fresh := by simp [loc, locOf, h0, h1, h2]
        rw [e, (hz.made ns).1, (hz.made ns).2, if_neg h0]
        exact ⟨rfl, fun _ => rfl⟩

/-- C107: a time that healthd puts into its answer is shown by healthtop as the time on healthd's clock; unless the two are in the same zone, the text
also tells the instant. -/
theorem C107_answer {zone : Nat → Int → Int} (hzone : ZonesOk zone) {t : Time} (ht : FourDigits t.ns) {lo : Int → Int} {fresh : Nat} {z : Zones}
    (hz : ReadZones lo fresh (zone t.loc t.ns) z) (t0 : Time) :
    ∃ t', decTime lo fresh t0 (JVal.str (timeText zone t)).raw = some t' ∧
      (Screen.readTime (z.text t')).map (·.1) = some (t.ns / 1000000000 + zone t.loc t.ns) ∧
      (lo t.ns ≠ zone t.loc t.ns ∨ zone t.loc t.ns = 0 → readInstant (z.text t') = some (t.ns / 1000000000)) := by
  refine ⟨_, decTime_raw lo fresh hzone ht t0, ?_, ?_⟩
  · obtain ⟨h1, -⟩ := offset_locOf hz t.ns
    unfold Zones.text
    dsimp only
    rw [h1, readTime_rfc1123 _ _ _ (fourDigits_year ht ⟨(hzone _ _).1, (hzone _ _).2.1⟩)]
    rfl
  · intro h
    obtain ⟨h1, h2⟩ := offset_locOf hz t.ns
    unfold Zones.text
    dsimp only
    rw [h1, h2 h]
    have hy := fourDigits_year ht ⟨(hzone t.loc t.ns).1, (hzone t.loc t.ns).2.1⟩
    split
    · next h0 => exact (C107_text _ _ _ hy).2.2 h0 rfl
    · exact (C107_text _ _ _ hy).2.1 (hzone _ _).2.2 ⟨(hzone _ _).1, (hzone _ _).2.1⟩ rfl

/-- the hypotheses are met: healthd in a zone of +05:30, healthtop in UTC. -/
example : ReadZones (fun _ => 0) 3 19800 ⟨fun loc _ => if loc = 0 ∨ loc = 1 then bs "UTC" else [], fun loc _ => if loc ≤ 1 then 0 else if loc < 29 then ((loc : Int) - 14) * 3600 else 19800⟩ := by
  refine ⟨fun _ => by simp, fun _ => by simp, fun k _ hk => ?_, fun _ => ?_⟩
  · refine ⟨by dsimp only; rw [if_neg (by omega)], ?_⟩
    dsimp only
    rw [if_neg (by omega), if_pos (by omega)]
    push_cast
    ring
  · exact ⟨by dsimp only; rw [if_neg (by omega)], by dsimp only; rw [if_neg (by omega), if_neg (by omega)]⟩

example : (Screen.readTime (rfc1123 [] ((62135596800 + 1425167999) * 1000000000 + 5) 19800)) = some (62135596800 + 1425167999 + 19800, bs "+0530") := by decide +kernel

/-- what the first line says about healthd: the text, and the time of the error on the local clock. -/
def statusSays (text : Str) : Shown → (Str → Option (Int × Str)) → Int → Prop
  | .starting, _, _ => text = bs "[starting...]"
  | .success, _, _ => text = bs "[success]"
  | .error e at_, read, off => ∃ t, text = bs "[error: '" ++ e ++ bs "'    LastErrorAt: " ++ t ++ bs "]" ∧ (read t).map (·.1) = some (at_ / 1000000000 + off)

/-- C107: the first line has the time on the local clock, and the state of the connection to healthd with the time of the error. -/
theorem C107_first (z : Zones) (now : Int) (s : Shown) (hnow : FourDigitYear now (z.offset 1 now))
    (herr : ∀ e at_, s = .error e at_ → FourDigitYear at_ (z.offset 1 at_)) :
    ∃ t st, firstLine z now s = bs "Current Time: " ++ t ++ bs "    Status: " ++ st ++ [10] ∧
      (Screen.readTime t).map (·.1) = some (now / 1000000000 + z.offset 1 now) ∧
      statusSays st s Screen.readTime (match s with | .error _ at_ => z.offset 1 at_ | _ => 0) := by
  have e1 : bs "Current Time:" ++ [32] = bs "Current Time: " := by decide +kernel
  have e2 : [32] ++ bs "   Status:" ++ [32] = bs "    Status: " := by decide +kernel
  refine ⟨z.text ⟨now, 1⟩, fmtStatus z s, ?_, ?_, ?_⟩
  · unfold firstLine
    rw [e1, ← e2]
    simp only [List.append_assoc]
  · unfold Zones.text
    rw [readTime_rfc1123 _ _ _ hnow]
    rfl
  · cases s with
    | starting => rfl
    | success => rfl
    | error e at_ =>
      refine ⟨z.text ⟨at_, 1⟩, rfl, ?_⟩
      unfold Zones.text
      rw [readTime_rfc1123 _ _ _ (herr e at_ rfl)]
      rfl

example : firstLine ⟨fun _ _ => bs "UTC", fun _ _ => 0⟩ ((62135596800 + 1425167999) * 1000000000) (.error (bs "EOF") ((62135596800 + 1425167998) * 1000000000)) =
    bs "Current Time: Sat, 28 Feb 2015 23:59:59 UTC    Status: [error: 'EOF'    LastErrorAt: Sat, 28 Feb 2015 23:59:58 UTC]" ++ [10] := by decide +kernel

/-! ## Tables -/

/-- control sequences: nothing of it is seen. -/
def Unseen (a : Str) : Prop := 10 ∉ a ∧ 9 ∉ a ∧ ∀ t, visible (a ++ t) = visible t

/-- what is assumed of goterm: a text of one line gets control sequences around it. -/
structure Decorates (T : Term) : Prop where
  color : ∀ c s, 10 ∉ s → ∃ a b, T.color c s = a ++ s ++ b ∧ Unseen a ∧ Unseen b
  bold : ∀ s, 10 ∉ s → ∃ a b, T.bold s = a ++ s ++ b ∧ Unseen a ∧ Unseen b

theorem visible_plain {s : Str} (h : 27 ∉ s) (t : Str) : visible (s ++ t) = s ++ visible t := by
  induction s with
  | nil => rfl
  | cons c r ih =>
    simp only [List.mem_cons, not_or] at h
    have := ih h.2
    unfold visible at this ⊢
    rw [List.cons_append, visibleFrom, if_neg (Ne.symm h.1), this, List.cons_append]

theorem visible_cell {T : Term} (hT : Decorates T) (c : Cell) (h : OneCell c.text) (t : Str) :
    visible (cellBytes T c ++ t) = c.text ++ 9 :: visible t := by
  obtain ⟨h9, h10, h27⟩ := h
  have htab : visible (9 :: t) = 9 :: visible t := visible_plain (s := [9]) (by decide) t
  obtain ⟨a, b, hc, ⟨ha10, -, ha⟩, ⟨hb10, -, hb⟩⟩ := hT.color c.color c.text h10
  have hin : ∀ t, visible (T.color c.color c.text ++ t) = c.text ++ visible t := by
    intro t
    rw [hc, List.append_assoc, List.append_assoc, ha, visible_plain h27, hb]
  unfold cellBytes format
  split
  · obtain ⟨a', b', hb', ⟨-, -, ha2⟩, ⟨-, -, hb2⟩⟩ := hT.bold (T.color c.color c.text) (by
      rw [hc]; simp only [List.mem_append, not_or]; exact ⟨⟨ha10, h10⟩, hb10⟩)
    rw [hb']
    simp only [List.append_assoc]
    rw [ha2, hin, hb2, List.singleton_append, htab]
  · have hs : ∀ t, visible ([27, 91, 48, 109] ++ t) = visible t := fun t => rfl
    unfold normal
    simp only [List.append_assoc]
    rw [hs, hin, hs, List.singleton_append, htab]

theorem visible_cells {T : Term} (hT : Decorates T) (cs : List Cell) (h : ∀ c ∈ cs, OneCell c.text) (t : Str) :
    visible (cs.flatMap (cellBytes T) ++ t) = cs.flatMap (fun c => c.text ++ [9]) ++ visible t := by
  induction cs with
  | nil => rfl
  | cons c r ih =>
    rw [List.flatMap_cons, List.append_assoc, visible_cell hT c (h c (by simp)), ih (fun x hx => h x (by simp [hx]))]
    simp

theorem visible_title {T : Term} (hT : Decorates T) (s : Str) (h : OneCell s) (t : Str) :
    visible (T.bold (T.color .black s) ++ t) = s ++ visible t := by
  obtain ⟨h9, h10, h27⟩ := h
  obtain ⟨a, b, hc, ⟨ha10, -, ha⟩, ⟨hb10, -, hb⟩⟩ := hT.color .black s h10
  obtain ⟨a', b', hb', ⟨-, -, ha2⟩, ⟨-, -, hb2⟩⟩ := hT.bold (T.color .black s) (by
      rw [hc]; simp only [List.mem_append, not_or]; exact ⟨⟨ha10, h10⟩, hb10⟩)
  rw [hb']
  simp only [List.append_assoc]
  rw [ha2, hc]
  simp only [List.append_assoc]
  rw [ha, visible_plain h27, hb, hb2]

theorem visible_header {T : Term} (hT : Decorates T) (cols : List Str) (h : ∀ c ∈ cols, OneCell c) (t : Str) :
    visible (joinTabs (cols.map (fun s => T.bold (T.color .black s))) ++ t) = joinTabs cols ++ visible t := by
  induction cols with
  | nil => rfl
  | cons c r ih =>
    cases r with
    | nil => exact visible_title hT c (h c (by simp)) t
    | cons d r =>
      have := ih (fun x hx => h x (by simp [hx]))
      simp only [List.map_cons] at this ⊢
      simp only [joinTabs, List.append_assoc, List.singleton_append]
      rw [visible_title hT c (h c (by simp))]
      have htab : ∀ t, visible (9 :: t) = 9 :: visible t := fun t => visible_plain (s := [9]) (by decide) t
      rw [List.cons_append, htab, this]
      simp

theorem pieces_ne_nil (sep : UInt8) (s : Str) : pieces sep s ≠ [] := by
  cases s with
  | nil => simp [pieces]
  | cons c t =>
    rw [pieces]
    split
    · simp
    · split <;> simp

theorem pieces_none {sep : UInt8} {s : Str} (h : sep ∉ s) : pieces sep s = [s] := by
  induction s with
  | nil => rfl
  | cons c t ih =>
    simp only [List.mem_cons, not_or] at h
    rw [pieces, if_neg (Ne.symm h.1), ih h.2]

theorem pieces_append {sep : UInt8} {s : Str} (h : sep ∉ s) (t : Str) : pieces sep (s ++ sep :: t) = s :: pieces sep t := by
  induction s with
  | nil => simp [pieces]
  | cons c r ih =>
    simp only [List.mem_cons, not_or] at h
    rw [List.cons_append, pieces, if_neg (Ne.symm h.1), ih h.2]

theorem pieces_flat {sep : UInt8} (ls : List Str) (h : ∀ l ∈ ls, sep ∉ l) (t : Str) :
    pieces sep (ls.flatMap (fun l => l ++ [sep]) ++ t) = ls ++ pieces sep t := by
  induction ls with
  | nil => rfl
  | cons l r ih =>
    rw [List.flatMap_cons, List.append_assoc, List.append_assoc, List.singleton_append, pieces_append (h l (by simp)),
      ih (fun x hx => h x (by simp [hx])), List.cons_append]

theorem pieces_join {cols : List Str} (h : ∀ c ∈ cols, 9 ∉ c) (hne : cols ≠ []) : pieces 9 (joinTabs cols) = cols := by
  induction cols with
  | nil => exact absurd rfl hne
  | cons c r ih =>
    cases r with
    | nil => exact pieces_none (h c (by simp))
    | cons d r =>
      rw [joinTabs, List.append_assoc, List.singleton_append, pieces_append (h c (by simp)), ih (fun x hx => h x (by simp [hx])) (by simp)]

theorem not_mem_join {x : UInt8} (hx : x ≠ 9) {cols : List Str} (h : ∀ c ∈ cols, x ∉ c) : x ∉ joinTabs cols := by
  induction cols with
  | nil => simp [joinTabs]
  | cons c r ih =>
    cases r with
    | nil => exact h c (by simp)
    | cons d r =>
      rw [joinTabs]
      simp only [List.mem_append, List.mem_singleton, not_or]
      exact ⟨⟨h c (by simp), hx⟩, ih (fun y hy => h y (by simp [hy]))⟩

theorem not_mem_flat {x : UInt8} (hx : x ≠ 9) {cells : List Str} (h : ∀ c ∈ cells, x ∉ c) : x ∉ cells.flatMap (fun c => c ++ [9]) := by
  simp only [List.mem_flatMap, List.mem_append, List.mem_singleton, not_exists, not_and, not_or]
  exact fun c hc => ⟨h c hc, hx⟩

/-- a table with these titles and cells reads as such. -/
theorem table_read {T : Term} (hT : Decorates T) (cols : List Str) (hne : cols ≠ []) (hcols : ∀ c ∈ cols, OneCell c) (rows : List (List Cell))
    (hrows : ∀ r ∈ rows, ∀ c ∈ r, OneCell c.text) :
    table (headerBytes T cols ++ (rows.map (fun r => r.flatMap (cellBytes T) ++ [10])).flatten) =
      cols :: rows.map (fun r => r.map (·.text) ++ [[]]) := by
  have hnl : ∀ t, visible (10 :: t) = 10 :: visible t := fun t => visible_plain (s := [10]) (by decide) t
  have hbody : ∀ rows : List (List Cell), (∀ r ∈ rows, ∀ c ∈ r, OneCell c.text) →
      visible (rows.map (fun r => r.flatMap (cellBytes T) ++ [10])).flatten =
      (rows.map (fun r => (r.map (·.text)).flatMap (fun s => s ++ [9]))).flatMap (fun l => l ++ [10]) := by
    intro rows h
    induction rows with
    | nil => rfl
    | cons r rs ih =>
      rw [List.map_cons, List.flatten_cons, List.append_assoc, visible_cells hT r (h r (by simp)), List.singleton_append, hnl,
        ih (fun x hx => h x (by simp [hx])), List.map_cons, List.flatMap_cons]
      simp [List.flatMap_map]
  unfold table headerBytes
  rw [List.append_assoc, visible_header hT cols hcols, List.singleton_append, hnl, hbody rows hrows,
    pieces_append (not_mem_join (by decide) (fun c hc => (hcols c hc).2.1))]
  have := pieces_flat (sep := 10) (rows.map (fun r => (r.map (·.text)).flatMap (fun s => s ++ [9]))) (by
    intro l hl
    obtain ⟨r, hr, rfl⟩ := List.mem_map.1 hl
    refine not_mem_flat (by decide) (fun c hc => ?_)
    obtain ⟨x, hx, rfl⟩ := List.mem_map.1 hc
    exact (hrows r hr x hx).2.1) []
  rw [List.append_nil] at this
  rw [this, show pieces 10 [] = [[]] from rfl, ← List.cons_append, List.dropLast_concat, List.map_cons,
    pieces_join (fun c hc => (hcols c hc).1) hne, List.map_map]
  congr 1
  refine List.map_congr_left (fun r hr => ?_)
  have := pieces_flat (sep := 9) (r.map (·.text)) (fun l hl => by
    obtain ⟨x, hx, rfl⟩ := List.mem_map.1 hl
    exact (hrows r hr x hx).1) []
  rw [List.append_nil] at this
  exact this

theorem oneCell_int (n : Int) : OneCell (intStr n) := by
  refine ⟨?_, ?_, ?_⟩ <;> intro h <;> exact absurd (intStr_numChars n _ h) (by decide)

theorem oneCell_append {a b : Str} (ha : OneCell a) (hb : OneCell b) : OneCell (a ++ b) := by
  obtain ⟨a1, a2, a3⟩ := ha
  obtain ⟨b1, b2, b3⟩ := hb
  refine ⟨?_, ?_, ?_⟩ <;> simp only [List.mem_append, not_or]
  exacts [⟨a1, b1⟩, ⟨a2, b2⟩, ⟨a3, b3⟩]

instance (s : Str) : Decidable (OneCell s) := by unfold OneCell; infer_instance

theorem oneCell_cellText (n : Int) : OneCell (cellText n) := by
  have e1 : OneCell (bs "ms") := by decide +kernel
  have e2 : OneCell (bs "ns") := by decide +kernel
  have e3 : OneCell micro := by decide +kernel
  have e4 : OneCell [32] := by decide +kernel
  unfold cellText
  split
  · exact oneCell_append (oneCell_append (oneCell_int _) e4) e1
  · split
    · exact oneCell_append (oneCell_append (oneCell_int _) e4) e3
    · exact oneCell_append (oneCell_append (oneCell_int _) e4) e2

theorem lines_some {α β : Type} (f : α → β) (items : List α) : lines f (items.map some) = some (items.map f) := by
  unfold lines
  induction items with
  | nil => rfl
  | cons a t ih => rw [List.map_cons, List.mapM_cons, ih]; rfl

/-- the columns of a job. -/
def jobShown (r : Row) : List (Str × Str) :=
  [(bs "Job", r.name), (bs "Total Count", intStr r.count), (bs "Success", intStr r.countSuccess), (bs "ValidationError", intStr r.countValidationError),
   (bs "Panic", intStr r.countPanic), (bs "Error", intStr r.countError), (bs "Junk", intStr r.countJunk), (bs "Avg Response Time", cellText (toI64 r.nanosAvg)),
   (bs "Stddev", cellText (toI64 r.nanosStdDev)), (bs "Min", cellText r.nanosMin), (bs "Max", cellText r.nanosMax), (bs "Total", cellText r.nanosSum)]

/-- C106: the table of jobs as written to the terminal: its first line has the titles, and there is a line for every job, in order, with each value under its
title; if no name has tabs, newlines or escapes. -/
theorem C106_jobs_partial {T : Term} (hT : Decorates T) (rows : List Row) (h : ∀ r ∈ rows, OneCell r.name) :
    ∃ text titles, jobsTable T (rows.map some) = some text ∧ table text = titles :: rows.map (fun r => (jobShown r).map (·.2) ++ [[]]) ∧
      ∀ r ∈ rows, (jobShown r).map (·.1) = titles := by
  have hc : ∀ c ∈ jobColumns, OneCell c := by decide +kernel
  refine ⟨_, jobColumns, by unfold jobsTable; rw [lines_some]; rfl, ?_, fun r _ => rfl⟩
  have := table_read hT jobColumns (by decide) hc (rows.map jobCells) (by
    intro cs hcs c hc
    obtain ⟨r, hr, rfl⟩ := List.mem_map.1 hcs
    simp only [jobCells, cell, List.mem_cons, List.not_mem_nil, or_false] at hc
    rcases hc with rfl | rfl | rfl | rfl | rfl | rfl | rfl | rfl | rfl | rfl | rfl | rfl
    · exact h r hr
    all_goals first
      | exact oneCell_int _
      | exact oneCell_cellText _)
  rw [List.map_map, List.map_map] at this
  exact this

theorem oneCell_digits {s : Str} (h : ∀ c ∈ s, IsDigit c) : OneCell s := by
  refine ⟨?_, ?_, ?_⟩ <;> intro hm <;> have := (h _ hm).1 <;> revert this <;> decide

theorem oneCell_padNat (w n : Nat) : OneCell (padNat w n) := by
  unfold padNat
  split
  · exact oneCell_digits (padDigits_spec w n).2.1
  · exact oneCell_digits (natStr_spec n).2.1

theorem oneCell_getD {names : List Str} (h : ∀ s ∈ names, OneCell s) (i : Nat) : OneCell (names.getD i []) := by
  rw [List.getD_eq_getElem?_getD]
  cases hg : names[i]? with
  | none => decide
  | some s => exact h s (List.mem_of_getElem? hg)

theorem oneCell_rfc1123 {name : Str} (h : OneCell name) (ns offset : Int) : OneCell (rfc1123 name ns offset) := by
  have k1 : ∀ s ∈ shortDayNames, OneCell s := by decide +kernel
  have k2 : ∀ s ∈ shortMonthNames, OneCell s := by decide +kernel
  have k3 : OneCell (bs ", ") := by decide +kernel
  have k4 : OneCell (bs " ") := by decide +kernel
  have k5 : OneCell (bs ":") := by decide +kernel
  have k6 : OneCell (bs "-") := by decide +kernel
  have k7 : OneCell (bs "+") := by decide +kernel
  have k8 : OneCell [] := by decide
  unfold rfc1123 zoneAbbr
  generalize bs ", " = x3 at k3 ⊢
  generalize bs " " = x4 at k4 ⊢
  generalize bs ":" = x5 at k5 ⊢
  generalize bs "-" = x6 at k6 ⊢
  generalize bs "+" = x7 at k7 ⊢
  refine oneCell_append ?_ ?_
  · repeat' apply oneCell_append
    all_goals first
      | exact oneCell_padNat _ _
      | exact oneCell_getD k1 _
      | exact oneCell_getD k2 _
      | exact k3
      | exact k4
      | exact k5
      | split <;> [exact k6; exact k8]
  · split
    · exact h
    · refine oneCell_append (oneCell_append ?_ (oneCell_padNat _ _)) (oneCell_padNat _ _)
      split <;> [exact k6; exact k7]

/-- the columns of a host: the status as in `C75_line`, the time of the last check as in `C107_text`, the duration as in `C74_duration`. -/
def hostShown (z : Zones) (h : HostStatus) : List (Str × Str) :=
  [(bs "Host:Port", h.hostPort), (bs "Status", (hostLine h).status.text), (bs "Last Checked", z.text h.lastCheckTime),
   (bs "Last Response Time", cellText h.lastNanos)]

/-- C106: likewise the table of hosts, if no address, no error and no abbreviation of a zone has tabs, newlines or escapes. -/
theorem C106_hosts_partial {T : Term} (hT : Decorates T) (z : Zones) (hosts : List HostStatus)
    (h : ∀ x ∈ hosts, OneCell x.hostPort ∧ OneCell x.lastErr ∧ OneCell (z.name x.lastCheckTime.loc x.lastCheckTime.ns)) :
    ∃ text titles, hostsTable T z (hosts.map some) = some text ∧ table text = titles :: hosts.map (fun x => (hostShown z x).map (·.2) ++ [[]]) ∧
      ∀ x ∈ hosts, (hostShown z x).map (·.1) = titles := by
  have hc : ∀ c ∈ hostColumns, OneCell c := by decide +kernel
  refine ⟨_, hostColumns, by unfold hostsTable; rw [lines_some]; rfl, ?_, fun r _ => rfl⟩
  have := table_read hT hostColumns (by decide) hc
    (hosts.map (fun x => [(hostLine x).host, (hostLine x).status, cell (z.text (hostLine x).checked) false false false, (hostLine x).responseTime])) (by
    intro cs hcs c hc
    obtain ⟨x, hx, rfl⟩ := List.mem_map.1 hcs
    obtain ⟨h1, h2, h3⟩ := h x hx
    simp only [List.mem_cons, List.not_mem_nil, or_false] at hc
    rcases hc with rfl | rfl | rfl | rfl
    · exact h1
    · have e1 : OneCell (bs "Success") := by decide +kernel
      have e2 : OneCell (bs "Unknown") := by decide +kernel
      have e3 : OneCell (bs "Failure: ") := by decide +kernel
      show OneCell (if _ then _ else if _ then _ else _)
      split
      · exact e1
      · split
        · exact e2
        · exact oneCell_append e3 h2
    · exact oneCell_rfc1123 h3 _ _
    · exact oneCell_cellText _)
  rw [List.map_map, List.map_map] at this
  exact this

/-- control sequences as terminals know them: a colour, bold, and back to normal. -/
def ansiColor : Color → UInt8
  | .black => 48
  | .green => 50
  | .red => 49
def ansi : Term :=
  ⟨fun c s => ([27, 91, 51, ansiColor c, 109] : Str) ++ s ++ ([27, 91, 48, 109] : Str), fun s => ([27, 91, 49, 109] : Str) ++ s ++ ([27, 91, 48, 109] : Str)⟩

theorem unseen_reset : Unseen [27, 91, 48, 109] := ⟨by decide, by decide, fun _ => rfl⟩

/-- the assumption about goterm can be met. -/
theorem ansi_decorates : Decorates ansi := by
  refine ⟨fun c s _ => ⟨_, _, rfl, ?_, unseen_reset⟩, fun s _ => ⟨_, _, rfl, ⟨by decide, by decide, fun t => rfl⟩, unseen_reset⟩⟩
  cases c <;> exact ⟨by decide, by decide, fun t => rfl⟩

/-- not C106: a job whose name has a tab: its counts are no longer under their titles. -/
theorem C106_false : (jobsTable ansi [some ⟨bs "a" ++ 9 :: bs "b", 7, 6, 0, 0, 1, 0, 700, .fin 70000, 100, 100, .fin 100, .fin 0⟩]).map
      (fun t => (table t).map (fun l => l.take 7)) =
    some [[bs "Job", bs "Total Count", bs "Success", bs "ValidationError", bs "Panic", bs "Error", bs "Junk"], [bs "a", bs "b", bs "7", bs "6", bs "0", bs "0", bs "1"]] := by decide +kernel

example : ∃ text titles, jobsTable ansi [some ⟨bs "job", 7, 6, 0, 0, 1, 0, 700, .fin 70000, 100, 100, .fin 100, .fin 0⟩] = some text ∧
    table text = [titles, [bs "job", bs "7", bs "6", bs "0", bs "0", bs "1", bs "0", bs "100 ns", bs "0 ns", bs "100 ns", bs "100 ns", bs "700 ns", []]] :=
  ⟨_, jobColumns, rfl, by decide +kernel⟩

end TopText
