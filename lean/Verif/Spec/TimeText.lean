import Verif.Spec.StatsD
/-!
# Reading an RFC 3339 time
Independent of the formatter: the text `YYYY-MM-DDTHH:MM:SS[.fraction](Z|±HH:MM)` to the instant, in nanoseconds since January 1 of
year 1, UTC, and the zone offset in seconds.
-/
namespace Spec

/-- Gregorian leap years. -/
def leapYear (y : Nat) : Bool := (y % 4 == 0 && y % 100 != 0) || y % 400 == 0
/-- length of a month. -/
def monthLength (y m : Nat) : Nat :=
  if m = 2 then (if leapYear y then 29 else 28) else if m = 4 ∨ m = 6 ∨ m = 9 ∨ m = 11 then 30 else 31
/-- days from January 1 of year 1 to January 1 of year `y` (negative for year 0). -/
def daysToYear (y : Nat) : Int := 365 * ((y:Int) - 1) + ((y:Int) - 1) / 4 - ((y:Int) - 1) / 100 + ((y:Int) - 1) / 400
/-- days in the months before `m`. -/
def daysToMonth (y : Nat) : Nat → Nat
  | 0 => 0
  | 1 => 0
  | m + 2 => daysToMonth y (m + 1) + monthLength y (m + 1)

/-- exactly `w` digits. -/
def readDigits (w : Nat) (s : Str) : Option (Nat × Str) :=
  if (s.take w).length = w ∧ isDigits (s.take w) then some (digitsVal (s.take w), s.drop w) else none
def expect (c : UInt8) (s : Str) : Option Str := if s.head? = some c then some s.tail else none

/-- optional fraction of a second, in nanoseconds; digits after the ninth do not count. -/
def readFrac (s : Str) : Option (Nat × Str) :=
  match s with
  | 46 :: t =>
    let ds := t.takeWhile (fun c => decide (48 ≤ c ∧ c ≤ 57))
    if 1 ≤ ds.length then some (digitsVal (ds.take 9) * 10 ^ (9 - (ds.take 9).length), t.drop ds.length) else none
  | _ => some (0, s)

/-- zone offset in seconds. -/
def readZone (s : Str) : Option Int :=
  if s = [90] then some 0
  else do
    let sign ← if s.head? = some 43 then some (1 : Int) else if s.head? = some 45 then some (-1) else none
    let (h, s) ← readDigits 2 s.tail
    let s ← expect 58 s
    let (m, s) ← readDigits 2 s
    if s = [] ∧ h < 24 ∧ m < 60 then some (sign * (h * 3600 + m * 60)) else none

/-- instant and zone offset. -/
def readTime (s : Str) : Option (Int × Int) := do
  let (y, s) ← readDigits 4 s
  let s ← expect 45 s
  let (mo, s) ← readDigits 2 s
  let s ← expect 45 s
  let (d, s) ← readDigits 2 s
  let s ← expect 84 s
  let (h, s) ← readDigits 2 s
  let s ← expect 58 s
  let (mi, s) ← readDigits 2 s
  let s ← expect 58 s
  let (sec, s) ← readDigits 2 s
  let (frac, s) ← readFrac s
  let off ← readZone s
  if 1 ≤ mo ∧ mo ≤ 12 ∧ 1 ≤ d ∧ d ≤ monthLength y mo ∧ h < 24 ∧ mi < 60 ∧ sec < 60 then
    some (((daysToYear y + daysToMonth y mo + d - 1) * 86400 + h * 3600 + mi * 60 + sec - off) * 1000000000 + frac, off)
  else none

end Spec

open Spec in
example : readTime (bs "2015-02-28T23:59:59.5Z") = some ((62135596800 + 1425167999) * 1000000000 + 500000000, 0) ∧
  readTime (bs "2000-02-29T08:30:00-03:30") = some ((62135596800 + 951825600) * 1000000000, -12600) ∧
  readTime (bs "1900-02-29T00:00:00Z") = none := by decide +kernel
