import Verif.Model.Healthd
/-!
# The debouncer
Models /repo/healthd/debouncer.go.
-/
namespace Healthd

/-- what happens in one iteration of the debouncer's loop. -/
structure Iter where
  /-- a request was waiting -/
  request : Bool
  /-- the clock after the `select` (line 15) -/
  now1 : Time
  /-- the clock at line 22 -/
  now2 : Time
  /-- the clock when the send on `doit` (line 23), if any, has been received -/
  received : Time
deriving DecidableEq, Repr

/-- debouncer.go:13-16. -/
def debouncerTake (oldest now : Time) : Time := if isZero oldest then now else oldest

/-- debouncer.go:22. -/
def debouncerDue (threshold : Int) (oldest now : Time) : Bool := !isZero oldest && subTime now oldest > threshold

/-- debouncer.go:11-25: one iteration; whether it sends on `doit`, and `oldestNeedItDone`. -/
def debouncerStep (threshold : Int) (oldest : Time) (it : Iter) : Bool × Time :=
  let oldest := if it.request then debouncerTake oldest it.now1 else oldest
  if debouncerDue threshold oldest it.now2 then (true, zeroTime) else (false, oldest)

/-- debouncer.go:8-26: whether each iteration sends on `doit`. -/
def debouncerFrom (threshold : Int) (oldest : Time) : List Iter → List Bool
  | [] => []
  | it :: t => (debouncerStep threshold oldest it).1 :: debouncerFrom threshold (debouncerStep threshold oldest it).2 t

def debouncer (threshold : Int) (its : List Iter) : List Bool := debouncerFrom threshold zeroTime its

end Healthd
