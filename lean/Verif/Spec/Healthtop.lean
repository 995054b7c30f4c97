import Verif.Model.Healthtop
import Verif.Spec.Api
import Verif.Spec.Metrics
import Verif.Spec.Healthd
/-!
# Specification of healthtop
-/
namespace Spec.Top
open Spec Api Healthd Healthtop

/-- `sub` occurs in `s`. -/
def Contains (s sub : Str) : Prop := ∃ a b, s = a ++ sub ++ b

/-- the integers of a row are int64. -/
def Ints (r : Row) : Prop :=
  ∀ n ∈ [r.count, r.countSuccess, r.countValidationError, r.countPanic, r.countError, r.countJunk, r.nanosSum, r.nanosMin, r.nanosMax], InI64 n

/-- a host as JSON transports it: the same but for the names of time zones. -/
structure SameHost (a b : HostStatus) : Prop where
  hostPort : a.hostPort = b.hostPort
  check : a.lastCheckTime.ns = b.lastCheckTime.ns
  inst : a.lastInstanceId = b.lastInstanceId
  dur : a.lastIntervalDuration = b.lastIntervalDuration
  err : a.lastErr = b.lastErr
  nanos : a.lastNanos = b.lastNanos
  code : a.lastCode = b.lastCode
  first : a.firstSuccessfulResponse.ns = b.firstSuccessfulResponse.ns
  last : a.lastSuccessfulResponse.ns = b.lastSuccessfulResponse.ns

/-- units of time. -/
inductive Unit' where
  | ns | us | ms
deriving DecidableEq

def Unit'.nanos : Unit' → Int
  | .ns => 1
  | .us => 1000
  | .ms => 1000000
/-- ns, μs, ms in UTF-8. -/
def Unit'.text : Unit' → Str
  | .ns => [110, 115]
  | .us => [0xCE, 0xBC, 115]
  | .ms => [109, 115]

/-- the text says "n unit". -/
def CellSays (text : Str) (n : Int) (u : Unit') : Prop := text = intStr n ++ [32] ++ u.text

/-- the status shown for a host whose responses so far are `rs`. -/
def hostStatusText (rs : List PollResponse) : Str × Color :=
  match rs.getLast? with
  | none => (bs "Unknown", .red)
  | some r => if Succeeded r then (bs "Success", .green) else (bs "Failure: " ++ r.err.getD [], .red)

/-! ## The loop -/

/-- the outcomes the loop received, in order, with the times. -/
def received {α : Type} (ls : List (Lab α)) : List (Outcome α × Int) :=
  ls.filterMap (fun
    | .receive _ r now => some (r, now)
    | _ => none)

/-- what the status line should say. -/
def statusLine {α : Type} (xs : List (Outcome α × Int)) : Shown :=
  match xs.getLast? with
  | none => .starting
  | some (.ok _, _) => .success
  | some (.error e, at_) => .error e at_

/-- the data: of the last success received. -/
def data {α : Type} (xs : List (Outcome α × Int)) : Option (Answer α) :=
  (xs.filterMap (fun p => match p.1 with
    | .ok a => some a
    | .error _ => none)).getLast?

end Spec.Top
