import Verif.Model.Healthtop
import Verif.Model.TimeText
/-!
# What healthtop writes to the terminal (cmd/healthtop/main.go:21-33, jobs.go:108-208, hosts.go:66-115)
The bytes given to goterm: the first line, and the text written into the table, which goterm lays out in columns (with text/tabwriter: the cells end
with tabs, the lines with newlines). goterm is not part of /repo: `Color` and `Bold` are parameters (`Term`), clearing the screen, the layout and the
width are left out. Times are written in layout RFC1123, `Mon, 02 Jan 2006 15:04:05 MST`.
-/

/-- time.go `shortDayNames`. -/
def shortDayNames : List Str := [bs "Sun", bs "Mon", bs "Tue", bs "Wed", bs "Thu", bs "Fri", bs "Sat"]
/-- format.go `shortMonthNames`. -/
def shortMonthNames : List Str :=
  [bs "Jan", bs "Feb", bs "Mar", bs "Apr", bs "May", bs "Jun", bs "Jul", bs "Aug", bs "Sep", bs "Oct", bs "Nov", bs "Dec"]

/-- time.go `absWeekday`: January 1 of year 1 is a Monday; 0 is Sunday. -/
def weekdayIndex (day : Int) : Nat := ((day + 1) % 7).toNat

/-- format.go, `stdTZ`: the abbreviation of the zone, or ±hhmm if it has none. -/
def zoneAbbr (name : Str) (offset : Int) : Str :=
  if name ≠ [] then name
  else
    let zone := Int.tdiv offset 60
    (if zone < 0 then bs "-" else bs "+") ++ padNat 2 (zone.natAbs / 60) ++ padNat 2 (zone.natAbs % 60)

/-- `t.Format(time.RFC1123)` for the instant `ns` in a zone with this abbreviation and offset (seconds). -/
def rfc1123 (name : Str) (ns offset : Int) : Str :=
  let c := clockOf ns offset
  shortDayNames.getD (weekdayIndex ((ns / 1000000000 + offset) / 86400)) [] ++ bs ", " ++ padNat 2 c.day.toNat ++ bs " " ++
    shortMonthNames.getD (c.month.toNat - 1) [] ++ bs " " ++ (if c.year < 0 then bs "-" else []) ++ padNat 4 c.year.natAbs ++ bs " " ++
    padNat 2 (c.sec / 3600).toNat ++ bs ":" ++ padNat 2 (c.sec / 60 % 60).toNat ++ bs ":" ++ padNat 2 (c.sec % 60).toNat ++ bs " " ++
    zoneAbbr name offset

namespace Healthtop
open Api Healthd

/-- zones as `time` knows them: abbreviation and offset of a location at an instant. -/
structure Zones where
  name : Nat → Int → Str
  offset : Nat → Int → Int

/-- `t.Format(time.RFC1123)`. -/
def Zones.text (z : Zones) (t : Time) : Str := rfc1123 (z.name t.loc t.ns) t.ns (z.offset t.loc t.ns)

/-- goterm's `Color` and `Bold` (not in /repo). -/
structure Term where
  color : Color → Str → Str
  bold : Str → Str

/-- jobs.go:206-208 `normal`. -/
def normal (s : Str) : Str := [27, 91, 48, 109] ++ s ++ [27, 91, 48, 109]
/-- jobs.go:197-204 `format`. -/
def format (T : Term) (c : Cell) : Str := if c.bold then T.bold (T.color c.color c.text) else normal (T.color c.color c.text)
/-- jobs.go:194: a cell with its tab. -/
def cellBytes (T : Term) (c : Cell) : Str := format T c ++ [9]
/-- jobs.go:149-164 `printJob`. -/
def jobBytes (T : Term) (j : Row) : Str := (jobCells j).flatMap (cellBytes T) ++ [10]
/-- hosts.go:99-115 `printHost`. -/
def hostBytes (T : Term) (z : Zones) (h : HostStatus) : Str :=
  let l := hostLine h
  [l.host, l.status, cell (z.text l.checked) false false false, l.responseTime].flatMap (cellBytes T) ++ [10]

/-- `strings.Join(columns, "\t")`. -/
def joinTabs : List Str → Str
  | [] => []
  | [s] => s
  | s :: t :: r => s ++ [9] ++ joinTabs (t :: r)
/-- jobs.go:135-140, hosts.go:85-90: the first line of a table. -/
def headerBytes (T : Term) (columns : List Str) : Str := joinTabs (columns.map (fun s => T.bold (T.color .black s))) ++ [10]
/-- jobs.go:119-133. -/
def jobColumns : List Str :=
  [bs "Job", bs "Total Count", bs "Success", bs "ValidationError", bs "Panic", bs "Error", bs "Junk", bs "Avg Response Time", bs "Stddev", bs "Min",
   bs "Max", bs "Total"]
/-- hosts.go:78-83. -/
def hostColumns : List Str := [bs "Host:Port", bs "Status", bs "Last Checked", bs "Last Response Time"]

/-- jobs.go:139-144; `none`: panics at a nil pointer. -/
def jobsTable (T : Term) (jobs : List (Option Row)) : Option Str :=
  (lines (jobBytes T) jobs).map (fun rows => headerBytes T jobColumns ++ rows.flatten)
/-- hosts.go:89-94. -/
def hostsTable (T : Term) (z : Zones) (hosts : List (Option HostStatus)) : Option Str :=
  (lines (hostBytes T z) hosts).map (fun rows => headerBytes T hostColumns ++ rows.flatten)

/-- main.go:25-33 `FmtStatus`; the times of `healthdStatus` are in the local zone (location 1). -/
def fmtStatus (z : Zones) : Shown → Str
  | .starting => bs "[starting...]"
  | .success => bs "[success]"
  | .error text at_ => bs "[error: '" ++ text ++ bs "'    LastErrorAt: " ++ z.text ⟨at_, 1⟩ ++ bs "]"

/-- jobs.go:112, hosts.go:70: `Println` puts blanks between its operands. -/
def firstLine (z : Zones) (now : Int) (s : Shown) : Str :=
  bs "Current Time:" ++ [32] ++ z.text ⟨now, 1⟩ ++ [32] ++ bs "   Status:" ++ [32] ++ fmtStatus z s ++ [10]

end Healthtop

example : rfc1123 (bs "UTC") 0 0 = bs "Mon, 01 Jan 0001 00:00:00 UTC" := by decide +kernel
example : rfc1123 (bs "MST") ((62135596800 + 1136239445) * 1000000000 + 7) (-25200) = bs "Mon, 02 Jan 2006 15:04:05 MST" := by decide +kernel
example : rfc1123 [] ((62135596800 + 951825600) * 1000000000) (-12600) = bs "Tue, 29 Feb 2000 08:30:00 -0330" := by decide +kernel
