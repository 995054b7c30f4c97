import Verif.Model.RuntimeMetrics
/-!
# Counting file descriptors
Models /repo/runtime_metrics/fds_linux.go and fds_darwin.go with `ioutil.ReadDir` on /proc/self/fd.  Descriptors are numbers; other goroutines may open and close
descriptors between any two system calls.
-/
namespace Descriptors

/-- which `ioutil.ReadDir`.  `early`: the directory is read and every entry looked at (`lstat`) while it is open, entries that have vanished are left out.
`late`: since it is written with `os.ReadDir`, the directory is closed before the entries are looked at, and an entry that has vanished is an error. -/
inductive Version where
  | early
  | late
  | darwin
deriving DecidableEq, Repr

/-- what happens in the process while its descriptors are counted. -/
structure Moment where
  /-- the process may have so many descriptors (`RLIMIT_NOFILE`) -/
  limit : Nat
  /-- the descriptors in use when the directory is opened -/
  before : List Nat
  /-- those of the rest of the program when the directory is read -/
  during : List Nat
  /-- whether the rest of the program uses this descriptor when the entry is looked at -/
  later : Nat → Bool

/-- open(2): the lowest number not in use. -/
def lowestFree (used : List Nat) : Nat := ((List.range (used.length + 1)).find? (fun n => !used.contains n)).getD used.length

/-- the descriptor of the directory. -/
def Moment.dir (m : Moment) : Nat := lowestFree m.before

/-- fds_linux.go:7-13, fds_darwin.go:3-5 `getFDUsage` (`none` = error). -/
def getFDUsage (v : Version) (m : Moment) : Option Nat :=
  match v with
  | .darwin => some 0
  | .early => if m.limit ≤ m.before.length then none
    else some ((m.during ++ [m.dir]).filter (fun n => n == m.dir || m.later n)).length
  | .late => if m.limit ≤ m.before.length then none
    else if (m.during ++ [m.dir]).all m.later then some (m.during ++ [m.dir]).length else none

/-- runtime_metrics.go:105-109: with the readings at that moment. -/
def reading (r : RuntimeMetrics.Readings) (v : Version) (m : Moment) : RuntimeMetrics.Readings := { r with fds := getFDUsage v m }

end Descriptors
