import Verif.Model.HealthdMain
import Verif.Model.Healthtop
/-!
# Addresses
Models where the programs listen and where they send their requests: /repo/cmd/healthtop/main.go:41, /repo/cmd/healthtop/jobs.go:64-68,
/repo/cmd/healthtop/hosts.go:43, /repo/healthd/poll.go:73-75, /repo/healthd/api.go:64-95 and /repo/json_polling_sink_http.go:16-18.
Simplified: ports are compared as text (no service names); hosts of listening addresses as text, too; fragments, user names and percent signs in the path of a URL
are not modelled.
-/
namespace Addr
open Api Healthtop

/-- cmd/healthtop/main.go:41: `--source` if it is not given. -/
def defaultSource : Str := bs "localhost:5032"

/-- cmd/healthtop/jobs.go:64-68. -/
def jobsUri (source : Str) (o : Opts) (height : Int) : Str := bs "http://" ++ source ++ bs "/healthd/jobs" ++ queryString o height

/-- cmd/healthtop/hosts.go:43. -/
def hostsUri (source : Str) : Str := bs "http://" ++ source ++ bs "/healthd/hosts"

/-- a request as it arrives: where it was sent, path and query. -/
structure Request where
  authority : Str
  path : Str
  query : Str
deriving DecidableEq, Repr

/-- what net/http makes of a URL: the part up to the first slash or question mark after the scheme, the part up to the question mark, the rest. -/
def request (uri : Str) : Option Request :=
  if (bs "http://").isPrefixOf uri then
    let rest := uri.drop 7
    let authority := rest.takeWhile (fun c => c ≠ 47 ∧ c ≠ 63)
    let rest := rest.dropWhile (fun c => c ≠ 47 ∧ c ≠ 63)
    let path := rest.takeWhile (· ≠ 63)
    some ⟨authority, path, (rest.dropWhile (· ≠ 63)).drop 1⟩
  else none

/-- api.go:64-85: the handler for a path. -/
def endpoint (path : Str) : Endpoint :=
  if path = bs "/healthd/aggregations" then .aggregations
  else if path = bs "/healthd/aggregations/overall" then .overall
  else if path = bs "/healthd/jobs" then .jobs
  else if path = bs "/healthd/hosts" then .hosts
  else .notFound

/-- api.go:87-95, 133-173: the answer of healthd's server to a request. -/
def serve (c : Choices) (identifier : Str) (zone : Nat → Int → Int) (v : View) (r : Request) : HttpResp :=
  let q := Query.parse r.query
  respond c identifier zone v (Query.get q (bs "sort")) (Query.get q (bs "limit")) (endpoint r.path)

/-- a text cut at its last colon. -/
def cutLast (s : Str) : Option (Str × Str) :=
  if (58 : UInt8) ∈ s then
    some ((s.reverse.dropWhile (· ≠ 58)).tail.reverse, (s.reverse.takeWhile (· ≠ 58)).reverse)
  else none

/-- `net.SplitHostPort` (`none` = error). -/
def splitHostPort (s : Str) : Option (Str × Str) :=
  match cutLast s with
  | none => none
  | some (pre, port) =>
    if pre.head? = some 91 then
      -- the first `]` has to be just before the last colon
      let host := (pre.drop 1).takeWhile (· ≠ 93)
      if pre = 91 :: (host ++ [93]) ∧ (91 : UInt8) ∉ host ∧ (91 : UInt8) ∉ port ∧ (93 : UInt8) ∉ port then some (host, port) else none
    else if (58 : UInt8) ∈ pre ∨ (91 : UInt8) ∈ pre ∨ (93 : UInt8) ∈ pre ∨ (91 : UInt8) ∈ port ∨ (93 : UInt8) ∈ port then none
    else some (pre, port)

/-- `http.Server.ListenAndServe`: the port of HTTP if no address is given. -/
def listenAddr (s : Str) : Str := if s = [] then bs ":http" else s

/-- two listeners of one machine: the second fails if the ports are the same and one listens everywhere or both at the same place. -/
def clash (a b : Str) : Bool :=
  match splitHostPort (listenAddr a), splitHostPort (listenAddr b) with
  | some (h, p), some (h', p') => decide (p = p' ∧ (h = [] ∨ h' = [] ∨ h = h'))
  | _, _ => false

/-- the addresses at which a program really listens that calls `ListenAndServe` for `as` in this order: json_polling_sink_http.go:17 and healthd/api.go:94
ignore the error. -/
def listening : List Str → List Str
  | [] => []
  | a :: as => if (splitHostPort (listenAddr a)).isSome then a :: (listening as).filter (fun b => !clash a b) else listening as

end Addr
