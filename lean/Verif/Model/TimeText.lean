import Verif.Model.Format
/-!
# RFC 3339 text of a time (Go `time`, layouts `RFC3339Nano` and `Time.MarshalJSON`)
Used for the log timestamps (writer_sink.go:92-94), for `interval_start` in the metrics JSON (interval_aggregation.go:10) and hence by
healthd when it reads the hosts' metrics.
-/

/-- time.go `absDate` (before Go 1.24): year, day of the year (from 0) of a day counted from January 1 of year 1.  The cycles of 400, 100, 4 and 1
years are taken off in turn; the last day of a 100-year cycle's and of a 4-year cycle's final year must not start a fifth one. -/
def civilYear (day : Int) : Int × Int :=
  let n400 := day / 146097
  let d := day - 146097 * n400
  let n100 := d / 36524
  let n100 := n100 - n100 / 4
  let d := d - 36524 * n100
  let n4 := d / 1461
  let d := d - 1461 * n4
  let n1 := d / 365
  let n1 := n1 - n1 / 4
  let d := d - 365 * n1
  (400 * n400 + 100 * n100 + 4 * n4 + n1 + 1, d)

/-- time.go `isLeap`. -/
def isLeap (y : Int) : Bool := y % 4 = 0 && (y % 100 ≠ 0 || y % 400 = 0)

/-- time.go `daysBefore`: days in a common year before each month, and before the next year. -/
def daysBeforeMonth : List Int := [0, 31, 59, 90, 120, 151, 181, 212, 243, 273, 304, 334, 365]

/-- time.go `absDate`, second half: month (1-12) and day of the month of a day of the year. -/
def monthDay (leap : Bool) (yday : Int) : Int × Int :=
  if leap && yday = 59 then (2, 29)
  else
    let d := if leap && yday > 59 then yday - 1 else yday
    let month := ((daysBeforeMonth.drop 1).takeWhile (fun b => b ≤ d)).length
    (month + 1, d - daysBeforeMonth.getD month 0 + 1)

/-- digits with leading zeros up to a width (format.go `appendInt`), for the non-negative numbers used here. -/
def padNat (w n : Nat) : Str := if n < 10 ^ w then padDigits w n else natStr n

/-- fraction of a second without trailing zeros, with the point; nothing if zero (format.go `appendNano`, layout `.999999999`). -/
def fracText (nanos : Nat) : Str :=
  if nanos = 0 then []
  else 46 :: ((padDigits 9 nanos).reverse.dropWhile (· = 48)).reverse

/-- zone designator: `Z` for offset 0, else ±hh:mm; seconds of the offset are dropped (format.go, `stdISO8601ColonTZ`). -/
def zoneText (offset : Int) : Str :=
  if offset = 0 then bs "Z"
  else
    let zone := Int.tdiv offset 60
    (if zone < 0 then bs "-" else bs "+") ++ padNat 2 (zone.natAbs / 60) ++ bs ":" ++ padNat 2 (zone.natAbs % 60)

/-- year, month, day, second of the day and nanosecond of an instant shown at a zone offset (in seconds). -/
structure Clock where
  year : Int
  month : Int
  day : Int
  sec : Int
  nano : Int
deriving DecidableEq, Repr

def clockOf (ns offset : Int) : Clock :=
  let s := ns / 1000000000 + offset
  let y := civilYear (s / 86400)
  let m := monthDay (isLeap y.1) y.2
  ⟨y.1, m.1, m.2, s % 86400, ns % 1000000000⟩

/-- `t.Format(time.RFC3339Nano)`; years before 0 get a minus sign. -/
def rfc3339 (ns offset : Int) : Str :=
  let c := clockOf ns offset
  (if c.year < 0 then bs "-" else []) ++ padNat 4 c.year.natAbs ++ bs "-" ++ padNat 2 c.month.toNat ++ bs "-" ++ padNat 2 c.day.toNat ++ bs "T" ++
    padNat 2 (c.sec / 3600).toNat ++ bs ":" ++ padNat 2 (c.sec / 60 % 60).toNat ++ bs ":" ++ padNat 2 (c.sec % 60).toNat ++
    fracText c.nano.toNat ++ zoneText offset

/-- `Time.MarshalJSON` without the quotes; `none` = error: the year has not four digits. -/
def timeJSON (ns offset : Int) : Option Str :=
  let c := clockOf ns offset
  if 0 ≤ c.year ∧ c.year ≤ 9999 then some (rfc3339 ns offset) else none

-- 2015-02-28T23:59:59.5Z and the like; seconds from year 1 to 1970: 62135596800
example : rfc3339 ((62135596800 + 1425167999) * 1000000000 + 500000000) 0 = bs "2015-02-28T23:59:59.5Z" := by decide +kernel
example : rfc3339 ((62135596800 + 1456790399) * 1000000000) 3600 = bs "2016-03-01T00:59:59+01:00" := by decide +kernel
example : rfc3339 ((62135596800 + 951825600) * 1000000000) (-12600) = bs "2000-02-29T08:30:00-03:30" := by decide +kernel
example : rfc3339 0 0 = bs "0001-01-01T00:00:00Z" := by decide +kernel
