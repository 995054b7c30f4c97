import Verif.Spec.Healthd
import Verif.Spec.Metrics
import Verif.Model.Metrics
/-!
# Specification of a fleet of processes and of healthd polling them
Nothing here is about how healthd or the processes compute: only who emitted what and when, and which polls healthd received.
-/
namespace Spec
open Healthd

/-- a process with a JSON polling sink, as it is to an observer who knows everything it will ever do: under which host and port it is polled,
its identifier, how long its sink retains data, the UTC offsets of its time zones, and the history of emissions, ticks and polls (`read`). -/
structure Process where
  hostPort : Str
  instanceId : Str
  retain : Int
  zone : Nat → Int → Int
  hist : List (Time × AggOp)

/-- a process of ordinary kind, with interval `d`: its clock does not go backwards and shows years 1-9999, its numbers are Go values (gauges finite), its
names are in UTF-8 and without percent signs (see `C39_false`, `C40_false`, `C16_backwards_clock_witness`). -/
structure Process.Ok (d : Int) (p : Process) : Prop where
  retain : d ≤ p.retain
  clock : MonotoneClock p.hist
  length : p.hist.length < 2 ^ 63
  zones : ZonesOk p.zone
  id : IsUtf8 p.instanceId ∧ (37 : UInt8) ∉ p.instanceId
  emits : ∀ t e, (t, AggOp.emit e) ∈ p.hist → EmitFits e ∧ ∀ s ∈ emitNames e, IsUtf8 s ∧ (37 : UInt8) ∉ s
  years : ∀ x ∈ p.hist, FourDigits x.1.ns

/-- the emissions made in the interval of length `d` that starts at `ns`. -/
def madeIn (d ns : Int) (h : List (Time × AggOp)) : List Emit :=
  h.flatMap (fun x => if ns ≤ x.1.ns ∧ x.1.ns < ns + d then emitsOf x.2 else [])

/-- healthd (in the zone `lo`) polled the process after the operations `h1`, before `h2`, and got the answer `r`. -/
def PolledAt (lo : Int → Int) (d : Int) (p : Process) (h1 : List (Time × AggOp)) (now : Time) (h2 : List (Time × AggOp)) (r : PollResponse) : Prop :=
  p.hist = h1 ++ (now, .read) :: h2 ∧
  ∃ ms fresh ts nanos junk e, getMetrics d p.retain h1 now = some ms ∧
    r = poll lo fresh p.hostPort ts nanos junk e (.answer 200 (serveHTTP (bs "/health") p.instanceId d p.zone ms).body none)

/-- all that healthd successfully polled are processes of the fleet. -/
def Watches (lo : Int → Int) (d : Int) (fleet : List Process) (h : List Op) : Prop :=
  ∀ r n1 n2, Op.response r n1 n2 ∈ h → Succeeded r → ∃ p ∈ fleet, ∃ h1 now h2, PolledAt lo d p h1 now h2 r

/-- healthd has the whole interval starting at `ns` of process `p`: it received a poll made after the process's last emission in the interval and
before the process forgot the interval, and after it no poll made earlier. -/
def HasAll (lo : Int → Int) (d ns : Int) (p : Process) (h : List Op) : Prop :=
  ∃ hA r n1 n2 hB, h = hA ++ .response r n1 n2 :: hB ∧
    (∃ h1 now h2, PolledAt lo d p h1 now h2 r ∧ madeIn d ns h2 = [] ∧
      ∃ g ∈ retained d p.retain (h1 ++ [(now, .read)]), g.1.ns = ns) ∧
    ∀ r' n1' n2', Op.response r' n1' n2' ∈ hB → Succeeded r' → r'.hostPort = p.hostPort → r'.response.instanceId = p.instanceId →
      ∃ h1 now h2, PolledAt lo d p h1 now h2 r' ∧ madeIn d ns h2 = []

/-- a fleet of processes of ordinary kind and with the same interval `d`, no two with the same address and identifier, and healthd polling no others. -/
structure Fleet (lo : Int → Int) (d : Int) (P : List Process) (h : List Op) : Prop where
  pos : 0 < d
  fits : -2 ^ 63 ≤ 5 * d ∧ 5 * d < 2 ^ 63
  procs : ∀ p ∈ P, p.Ok d
  nodup : (P.map (fun p => (p.hostPort, p.instanceId))).Nodup
  watches : Watches lo d P h

end Spec
