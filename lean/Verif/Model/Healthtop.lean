import Verif.Model.Api
import Verif.Model.Query
/-!
# healthtop
Models /repo/cmd/healthtop: the request for jobs, decoding, filtering, what the cells of the tables say, the status line and the loops.
Not modelled: command line parsing (cobra), how goterm lays out the table and writes escape sequences, the text of times
(`Format(time.RFC1123)`, kept as the time itself).
-/
namespace Healthtop
open Api Healthd Unmarshal Spec

/-! ## The request -/

/-- jobs.go:15-18. -/
structure Opts where
  sort : Str
  name : Str
deriving DecidableEq, Repr

/-- jobs.go:213-219 `maxRows`; `height`: `goterm.Height()`. -/
def maxRows (height : Int) : Int := if height - 2 < 3 then 3 else height - 2

/-- jobs.go:49-62: the parameters, in the order in which `Encode` writes them. -/
def params (o : Opts) (height : Int) : List (Str × Str) :=
  let limit := if o.name = [] then maxRows height else 0
  (if limit ≠ 0 then [(bs "limit", intStr limit)] else []) ++ (if o.sort ≠ [] then [(bs "sort", o.sort)] else [])

/-- jobs.go:64-68: what stands after the path, with the question mark. -/
def queryString (o : Opts) (height : Int) : Str :=
  let p := Query.encode (params o height)
  if p = [] then [] else 63 :: p

/-! ## The answer -/

/-- healthd/api.go:17-32. -/
def rowZero : Row := ⟨[], 0, 0, 0, 0, 0, 0, 0, .fin 0, 0, 0, .fin 0, .fin 0⟩
def rowFields : List (Str × Dec Row) :=
  [fieldOf (bs "name") decStr (·.name) (fun s v => { s with name := v }),
   fieldOf (bs "count") decInt (·.count) (fun s v => { s with count := v }),
   fieldOf (bs "count_success") decInt (·.countSuccess) (fun s v => { s with countSuccess := v }),
   fieldOf (bs "count_validation_error") decInt (·.countValidationError) (fun s v => { s with countValidationError := v }),
   fieldOf (bs "count_panic") decInt (·.countPanic) (fun s v => { s with countPanic := v }),
   fieldOf (bs "count_error") decInt (·.countError) (fun s v => { s with countError := v }),
   fieldOf (bs "count_junk") decInt (·.countJunk) (fun s v => { s with countJunk := v }),
   fieldOf (bs "nanos_sum") decInt (·.nanosSum) (fun s v => { s with nanosSum := v }),
   fieldOf (bs "nanos_sum_squares") decFloat (·.nanosSumSquares) (fun s v => { s with nanosSumSquares := v }),
   fieldOf (bs "nanos_min") decInt (·.nanosMin) (fun s v => { s with nanosMin := v }),
   fieldOf (bs "nanos_max") decInt (·.nanosMax) (fun s v => { s with nanosMax := v }),
   fieldOf (bs "nanos_avg") decFloat (·.nanosAvg) (fun s v => { s with nanosAvg := v }),
   fieldOf (bs "nanos_std_dev") decFloat (·.nanosStdDev) (fun s v => { s with nanosStdDev := v })]

/-- healthd/healthd.go:46-58; `fresh`: see `locOf` (healthtop never asks whether two locations are the same, so all get one number). -/
def hostZero : HostStatus := ⟨[], zeroTime, [], 0, [], 0, 0, zeroTime, zeroTime⟩
def hostFields (localOffset : Int → Int) (fresh : Nat) : List (Str × Dec HostStatus) :=
  [fieldOf (bs "host_port") decStr (·.hostPort) (fun s v => { s with hostPort := v }),
   fieldOf (bs "last_check_time") (decTime localOffset fresh) (·.lastCheckTime) (fun s v => { s with lastCheckTime := v }),
   fieldOf (bs "last_instance_id") decStr (·.lastInstanceId) (fun s v => { s with lastInstanceId := v }),
   fieldOf (bs "last_interval_duration") decInt (·.lastIntervalDuration) (fun s v => { s with lastIntervalDuration := v }),
   fieldOf (bs "last_err") decStr (·.lastErr) (fun s v => { s with lastErr := v }),
   fieldOf (bs "last_nanos") decInt (·.lastNanos) (fun s v => { s with lastNanos := v }),
   fieldOf (bs "last_code") decInt (·.lastCode) (fun s v => { s with lastCode := v }),
   fieldOf (bs "first_successful_response") (decTime localOffset fresh) (·.firstSuccessfulResponse) (fun s v => { s with firstSuccessfulResponse := v }),
   fieldOf (bs "last_successful_response") (decTime localOffset fresh) (·.lastSuccessfulResponse) (fun s v => { s with lastSuccessfulResponse := v })]

/-- a slice of pointers, as in `Unmarshal.Slice`: its elements, and what its array holds after them. -/
structure Items (α : Type) where
  elems : List (Option α)
  hidden : List (Option α)
deriving DecidableEq, Repr
def decItemsFrom {α : Type} (dec : Dec (Option α)) : List (Option α) → List Raw → Option (Items α)
  | cells, [] => some ⟨[], cells⟩
  | cells, r :: rs => (dec (cells.head?.getD none) r).bind (fun e => (decItemsFrom dec cells.tail rs).map (fun s => ⟨e :: s.elems, s.hidden⟩))
def decItems {α : Type} (dec : Dec (Option α)) : Dec (Items α)
  | _, .null => some ⟨[], []⟩
  | _, .arr [] => some ⟨[], []⟩
  | s, .arr rs => decItemsFrom dec (s.elems ++ s.hidden) rs
  | _, _ => none

/-- healthd/api.go:34-57: an answer as it is decoded; the fields of the embedded `apiResponse` first. -/
structure Decoded (α : Type) where
  instanceId : Str
  intervalDuration : Int
  items : Items α
deriving DecidableEq, Repr
def Decoded.zero {α : Type} : Decoded α := ⟨[], 0, ⟨[], []⟩⟩
def answerFields {α : Type} (name : Str) (fields : List (Str × Dec α)) (zero : α) : List (Str × Dec (Decoded α)) :=
  [fieldOf (bs "instance_id") decStr (·.instanceId) (fun s v => { s with instanceId := v }),
   fieldOf (bs "interval_duration") decInt (·.intervalDuration) (fun s v => { s with intervalDuration := v }),
   fieldOf name (decItems (decPtr (decStruct fields) zero)) (·.items) (fun s v => { s with items := v })]

/-- an answer. -/
structure Answer (α : Type) where
  instanceId : Str
  intervalDuration : Int
  items : List (Option α)
deriving DecidableEq, Repr

/-- jobs.go:82-86, hosts.go:57-61 `json.Unmarshal`; `none`: an error. -/
def unmarshal {α : Type} (name : Str) (fields : List (Str × Dec α)) (zero : α) (body : Str) : Option (Answer α) :=
  (Raw.parse body).bind (fun r => (decStruct (answerFields name fields zero) Decoded.zero r).map (fun d => ⟨d.instanceId, d.intervalDuration, d.items.elems⟩))

/-- `strings.Contains`. -/
def contains (s sub : Str) : Bool :=
  match s with
  | [] => decide (sub = [])
  | c :: t => sub.isPrefixOf (c :: t) || contains t sub

/-- jobs.go:96-106 `filterJobsByName`; `none`: panics at a nil job. -/
def filterJobsByName (name : Str) : List (Option Row) → Option (List (Option Row))
  | [] => some []
  | none :: _ => none
  | some j :: t => (filterJobsByName name t).map (fun r => if contains j.name name then some j :: r else r)

/-- what a poll sends to the loop. -/
abbrev Outcome (α : Type) := Except Str (Answer α)

/-- jobs.go:70-92: from the HTTP result to the outcome; the status code is not looked at. `jsonErr`: the text of an error of `Unmarshal`.
`none`: panics. -/
def pollJobs (o : Opts) (jsonErr : Str) : HttpResult → Option (Outcome Row)
  | .failed e => some (.error e)
  | .answer _ _ (some e) => some (.error e)
  | .answer _ body none =>
    match unmarshal (bs "jobs") rowFields rowZero body with
    | none => some (.error jsonErr)
    | some a =>
      if o.name ≠ [] then (filterJobsByName o.name a.items).map (fun js => .ok { a with items := js }) else some (.ok a)

/-- hosts.go:40-64. -/
def pollHosts (localOffset : Int → Int) (fresh : Nat) (jsonErr : Str) : HttpResult → Outcome HostStatus
  | .failed e => .error e
  | .answer _ _ (some e) => .error e
  | .answer _ body none =>
    match unmarshal (bs "hosts") (hostFields localOffset fresh) hostZero body with
    | none => .error jsonErr
    | some a => .ok a

/-! ## The tables -/

inductive Color where
  | black | green | red
deriving DecidableEq, Repr

/-- what a cell says. -/
structure Cell where
  text : Str
  color : Color
  bold : Bool
deriving DecidableEq, Repr

/-- jobs.go:186-195 `printCellString`. -/
def cell (text : Str) (isBold isGreen isRed : Bool) : Cell :=
  ⟨text, if isGreen then .green else if isRed then .red else .black, isBold⟩

/-- the unit of microseconds, "μs" (U+03BC). -/
def micro : Str := [206, 188, 115]

/-- jobs.go:166-180 `printCellNanos`: the text. -/
def cellText (nanos : Int) : Str :=
  if nanos > 2000000 then intStr (nanos.tdiv 1000000) ++ [32] ++ bs "ms"
  else if nanos > 1000 then intStr (nanos.tdiv 1000) ++ [32] ++ micro
  else intStr nanos ++ [32] ++ bs "ns"

/-- the conversion `int64(f)`; Go leaves open what it gives outside of the range: here as on amd64. -/
def toI64 : F64 → Int
  | .fin q =>
    let n := if q < 0 then -((-q).floor) else q.floor
    if -2 ^ 63 ≤ n ∧ n < 2 ^ 63 then n else -2 ^ 63
  | .negZero => 0
  | _ => -2 ^ 63

/-- jobs.go:149-164 `printJob`. -/
def jobCells (j : Row) : List Cell :=
  let full := decide (j.count = j.countSuccess)
  let bad (n : Int) : Cell := cell (intStr n) (decide (n > 0)) false (decide (n > 0))
  [cell j.name true false false, cell (intStr j.count) false full false, cell (intStr j.countSuccess) full full false,
   bad j.countValidationError, bad j.countPanic, bad j.countError, bad j.countJunk,
   cell (cellText (toI64 j.nanosAvg)) true false false, cell (cellText (toI64 j.nanosStdDev)) false false false,
   cell (cellText j.nanosMin) false false false, cell (cellText j.nanosMax) false false false, cell (cellText j.nanosSum) false false false]

/-- a row of the table of hosts: name, status, time of the last check, response time. -/
structure HostLine where
  host : Cell
  status : Cell
  checked : Time
  responseTime : Cell
deriving DecidableEq, Repr

/-- hosts.go:99-115 `printHost`. -/
def hostLine (h : HostStatus) : HostLine :=
  let success := decide (h.lastCode = 200) && decide (h.lastErr = [])
  let status := if success then bs "Success" else if isZero h.lastCheckTime then bs "Unknown" else bs "Failure: " ++ h.lastErr
  ⟨cell h.hostPort true false false, cell status false success (!success), h.lastCheckTime, cell (cellText h.lastNanos) false false false⟩

/-- jobs.go:142-144, hosts.go:92-94: `none`: panics at a nil pointer. -/
def lines {α β : Type} (f : α → β) (items : List (Option α)) : Option (List β) := items.mapM (fun i => i.map f)

/-! ## Status line and loop -/

/-- main.go:15-19; the zero time (`ns = 0`) = never. -/
structure Status where
  lastSuccessAt : Int
  lastErrorAt : Int
  lastError : Str
deriving DecidableEq, Repr

/-- what the status line says. -/
inductive Shown where
  | starting
  | error (text : Str) (at_ : Int)
  | success
deriving DecidableEq, Repr

/-- main.go:25-33 `FmtStatus`. -/
def Status.shown (s : Status) : Shown :=
  if s.lastErrorAt = 0 ∧ s.lastSuccessAt = 0 then .starting
  else if s.lastErrorAt > s.lastSuccessAt then .error s.lastError s.lastErrorAt
  else .success

/-- the variables of jobs.go:20-44 (and hosts.go:14-38), the polls under way (`pending`: not yet answered; `ready`: answered, waiting for the
loop to receive), and what was printed: status line and data. -/
structure Loop (α : Type) where
  next : Nat
  pending : List Nat
  ready : List (Nat × Outcome α)
  last : Option (Answer α)
  status : Status
  prints : List (Shown × Option (Answer α))

inductive Lab (α : Type) where
  /-- a second has passed -/
  | tick
  /-- poll `i` gets its result -/
  | result (i : Nat) (r : Outcome α)
  /-- the loop receives the result `r` of poll `i` at time `now` -/
  | receive (i : Nat) (r : Outcome α) (now : Int)

/-- jobs.go:28-29: the first poll is under way. -/
def Loop.init {α : Type} : Loop α := ⟨1, [0], [], none, ⟨0, 0, []⟩, []⟩

instance {α : Type} [DecidableEq α] : DecidableEq (Outcome α)
  | .ok a, .ok b => if h : a = b then .isTrue (by rw [h]) else .isFalse (by simpa using h)
  | .error a, .error b => if h : a = b then .isTrue (by rw [h]) else .isFalse (by simpa using h)
  | .ok _, .error _ => .isFalse (by simp)
  | .error _, .ok _ => .isFalse (by simp)

/-- jobs.go:30-44. -/
def Loop.step {α : Type} [DecidableEq α] (s : Loop α) : Lab α → Option (Loop α)
  | .tick => some { s with next := s.next + 1, pending := s.pending ++ [s.next], prints := s.prints ++ [(s.status.shown, s.last)] }
  | .result i r => if i ∈ s.pending then some { s with pending := s.pending.erase i, ready := s.ready ++ [(i, r)] } else none
  | .receive i r now =>
    if (i, r) ∈ s.ready then
      match r with
      | .ok a =>
        let st := { s.status with lastSuccessAt := now }
        some { s with ready := s.ready.erase (i, r), last := some a, status := st, prints := s.prints ++ [(st.shown, some a)] }
      | .error e => some { s with ready := s.ready.erase (i, r), status := { s.status with lastErrorAt := now, lastError := e } }
    else none

def Loop.run {α : Type} [DecidableEq α] (s : Loop α) : List (Lab α) → Option (Loop α)
  | [] => some s
  | l :: ls => (s.step l).bind (fun s' => s'.run ls)

end Healthtop
