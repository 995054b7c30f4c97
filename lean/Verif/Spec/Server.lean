import Verif.Model.Server
import Verif.Spec.History
/-!
# Specification: what the requests to a process' server are about
-/
namespace Spec

/-- the emissions made, in the order in which they entered the channel. -/
def srvEmissions (tr : List SrvLab) : List Emit := tr.filterMap (fun | .sink (.emit e) => some e | _ => none)
/-- how many emissions the sink has processed. -/
def processed (tr : List SrvLab) : Nat := tr.countP (fun | .sink (.recv _) => true | _ => false)
/-- what the sink's worker has seen on its clock. -/
def workerClock (tr : List SrvLab) : List Time :=
  tr.filterMap (fun | .sink (.recv t) => some t | .sink (.tick t) => some t | .sink (.request _ t) => some t | _ => none)
/-- the path of the latest request with number `c`. -/
def asked (c : Nat) : List SrvLab → Option Str
  | [] => none
  | l :: tr => (asked c tr).or (match l with | .arrive c' path => if c' = c then some path else none | _ => none)

/-- the emissions contained in a history. -/
def emissionsIn (h : List (Time × AggOp)) : List Emit := h.flatMap (fun p => emitsOf p.2)

/-- `resp`, written after the steps `u`, answers the request `c`, by the history `h` of the sink: for another path than /health it is the 404 answer;
for /health it shows the metrics at one point of the history (`now`), after the sink had processed all that it had when the request arrived, and no more than it
had when the answer was written. -/
def AnswersRequest (C : SrvConf) (retain : Int) (u : List SrvLab) (h : List (Time × AggOp)) (c : Nat) (resp : HttpResp) : Prop :=
  ∃ path, asked c u = some path ∧
    (path ≠ bs "/health" → resp = serveHTTP path C.identifier C.d C.zone []) ∧
    (path = bs "/health" → ∃ h1 now h2 ms, h = h1 ++ (now, .read) :: h2 ∧ getMetrics C.d retain h1 now = some ms ∧
      resp = serveHTTP (bs "/health") C.identifier C.d C.zone ms ∧
      (emissionsIn h1).length ≤ processed u ∧ ∀ u1 p u2, u = u1 ++ .arrive c p :: u2 → processed u1 ≤ (emissionsIn h1).length)

end Spec
