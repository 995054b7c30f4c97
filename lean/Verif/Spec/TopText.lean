import Verif.Spec.TimeText
import Verif.Spec.Healthtop
/-!
# Reading what is on the screen
Independent of the code that writes it.
-/
namespace Spec.Screen

/-! ## Times -/

def dayNames : List Str := [[83, 117, 110], [77, 111, 110], [84, 117, 101], [87, 101, 100], [84, 104, 117], [70, 114, 105], [83, 97, 116]]
def monthNames : List Str :=
  [[74, 97, 110], [70, 101, 98], [77, 97, 114], [65, 112, 114], [77, 97, 121], [74, 117, 110], [74, 117, 108], [65, 117, 103], [83, 101, 112],
   [79, 99, 116], [78, 111, 118], [68, 101, 99]]

/-- the position of the three-letter name at the front. -/
def readName (names : List Str) (s : Str) : Option (Nat × Str) :=
  if s.take 3 ∈ names then some (names.idxOf (s.take 3), s.drop 3) else none

/-- Zeller's congruence: the day of the week of a date of the Gregorian calendar, 0 = Saturday. (400 years more make no difference and keep the
numbers positive.) -/
def zeller (y m d : Nat) : Nat :=
  let m' := if m ≤ 2 then m + 12 else m
  let y' := if m ≤ 2 then y + 399 else y + 400
  (d + 13 * (m' + 1) / 5 + y' + y' / 4 - y' / 100 + y' / 400) % 7

/-- `Mon, 02 Jan 2006 `: day of the week, year, month (from 0), day. -/
def readDate (s : Str) : Option ((Nat × Nat × Nat × Nat) × Str) := do
  let (w, s) ← readName dayNames s
  let s ← expect 44 s
  let s ← expect 32 s
  let (d, s) ← readDigits 2 s
  let s ← expect 32 s
  let (mo, s) ← readName monthNames s
  let s ← expect 32 s
  let (y, s) ← readDigits 4 s
  let s ← expect 32 s
  some ((w, y, mo, d), s)

/-- `15:04:05 `. -/
def readClock (s : Str) : Option ((Nat × Nat × Nat) × Str) := do
  let (h, s) ← readDigits 2 s
  let s ← expect 58 s
  let (mi, s) ← readDigits 2 s
  let s ← expect 58 s
  let (sec, s) ← readDigits 2 s
  let s ← expect 32 s
  some ((h, mi, sec), s)

/-- `Mon, 02 Jan 2006 15:04:05 ZONE`: the seconds since January 1 of year 1 on the clock of that zone, and the name of the zone. The day of the
week must be that of the date. -/
def readTime (s : Str) : Option (Int × Str) := do
  let ((w, y, mo, d), s) ← readDate s
  let ((h, mi, sec), zone) ← readClock s
  if 1 ≤ d ∧ d ≤ monthLength y (mo + 1) ∧ h < 24 ∧ mi < 60 ∧ sec < 60 ∧ (w + 1) % 7 = zeller y (mo + 1) d then
    some ((daysToYear y + daysToMonth y (mo + 1) + d - 1) * 86400 + h * 3600 + mi * 60 + sec, zone)
  else none

/-- ±hhmm, in seconds. -/
def readOffset (s : Str) : Option Int := do
  let sign ← if s.head? = some 43 then some (1 : Int) else if s.head? = some 45 then some (-1) else none
  let (h, s) ← readDigits 2 s.tail
  let (m, s) ← readDigits 2 s
  if s = [] ∧ h < 24 ∧ m < 60 then some (sign * (h * 3600 + m * 60)) else none

/-- offset of UTC and of zones written as ±hhmm; abbreviations like CST do not tell. -/
def readZone (s : Str) : Option Int := if s = [85, 84, 67] then some 0 else readOffset s

/-- the instant, in seconds, if the zone tells. -/
def readInstant (s : Str) : Option Int := do
  let (clock, zone) ← readTime s
  let off ← readZone zone
  some (clock - off)

/-! ## Tables -/

inductive Mode where
  | text | escape | sequence

/-- what is left when the terminal has taken out its control sequences `ESC [ … m`. -/
def visibleFrom : Mode → Str → Str
  | _, [] => []
  | .text, c :: t => if c = 27 then visibleFrom .escape t else c :: visibleFrom .text t
  | .escape, _ :: t => visibleFrom .sequence t
  | .sequence, c :: t => if c = 109 then visibleFrom .text t else visibleFrom .sequence t
def visible (s : Str) : Str := visibleFrom .text s

/-- the pieces between separators. -/
def pieces (sep : UInt8) : Str → List Str
  | [] => [[]]
  | c :: t => if c = sep then [] :: pieces sep t else
    match pieces sep t with
    | [] => [[c]]
    | p :: ps => (c :: p) :: ps

/-- the cells of the lines of a table; all lines end with a newline. -/
def table (s : Str) : List (List Str) := (pieces 10 (visible s)).dropLast.map (pieces 9)

/-- text that a table can show: no tab, newline or escape. -/
def OneCell (s : Str) : Prop := 9 ∉ s ∧ 10 ∉ s ∧ 27 ∉ s

end Spec.Screen

open Spec Screen in
example : readInstant (bs "Thu, 01 Jan 1970 01:00:00 +0100") = some 62135596800 ∧ readInstant (bs "Fri, 01 Jan 1970 01:00:00 +0100") = none ∧
  readInstant (bs "Sat, 28 Feb 2015 23:59:59 UTC") = some (62135596800 + 1425167999) ∧
  Screen.readTime (bs "Tue, 29 Feb 2000 08:30:00 CST") = some (62135596800 + 951825600 - 12600, bs "CST") ∧
  Screen.readTime (bs "Mon, 29 Feb 1900 00:00:00 UTC") = none := by decide +kernel

open Spec Screen in
example : table ([27, 91, 49, 109, 65, 27, 91, 48, 109, 9, 66, 10] ++ [67, 9, 68, 9, 10]) = [[[65], [66]], [[67], [68], []]] := by decide +kernel
