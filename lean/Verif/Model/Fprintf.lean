import Verif.Model.Utf8
/-!
# `fmt.Fprintf(w, format)` without arguments
`fmt.Fprintf(rw, string(jsonData))` (json_polling_sink_http.go:34, healthd/api.go:188) uses the JSON text as a format.  Models `doPrintf`,
`argNumber`, `parseArgNumber` and `parsenum` of Go's fmt/print.go and fmt/format.go for an empty argument list.
-/
namespace Fprintf

def isFlag (c : UInt8) : Bool := c = 35 || c = 48 || c = 43 || c = 45 || c = 32
def isDig (c : UInt8) : Bool := decide (48 ≤ c ∧ c ≤ 57)

/-- print.go `parsenum`: is there a number, and what follows it; a number above 10^6 swallows the rest. -/
def parsenum (acc : Nat) (isnum : Bool) : Str → Bool × Str
  | [] => (isnum, [])
  | c :: t => if isDig c then (if acc > 1000000 then (false, []) else parsenum (acc * 10 + (c.toNat - 48)) true t) else (isnum, c :: t)

/-- print.go `parseArgNumber`, for the text after `[`: the text up to and with `]`, and whether what is between is a number.
Without a closing bracket (or with fewer than three bytes) only the `[` is skipped. -/
def argNumber (s : Str) : (Bool × Bool) × Str :=
  match s with
  | 91 :: t =>
    if t.length < 2 ∨ (93 : UInt8) ∉ t then ((true, false), t)
    else
      let inside := t.takeWhile (· ≠ 93)
      let p := parsenum 0 false inside
      -- ((an index was seen, it was well-formed), rest); without arguments no index is good
      ((true, p.1 && p.2 = []), (t.dropWhile (· ≠ 93)).drop 1)
  | _ => ((false, false), s)

/-- UTF-8 of the verb (`writeRune`), and what follows. -/
def verbOf (s : Str) : Str × Str :=
  match runes s with
  | .ascii b :: _ => ([b], s.drop 1)
  | .multi m :: _ => (m, s.drop m.length)
  | .bad _ :: _ => ([0xEF, 0xBF, 0xBD], s.drop 1)
  | [] => ([], [])

/-- print.go `doPrintf`, one directive; `s` is the text after the percent sign.  Output and rest of the format. -/
def directive (s : Str) : Str × Str :=
  let s := s.dropWhile isFlag
  let ((bad, after), s) := argNumber s
  -- width
  let (out, bad, after, s) := match s with
    | 42 :: t => (bs "%!(BADWIDTH)", bad, false, t)
    | _ => let p := parsenum 0 false s; ([], bad || (after && p.1), after, p.2)
  -- precision
  let (out, bad, after, s) := match s with
    | 46 :: t =>
      let bad := bad || after
      let ((b, a), t) := argNumber t
      match t with
      | 42 :: u => (out ++ bs "%!(BADPREC)", bad || b, false, u)
      | _ => (out, bad || b, a, (parsenum 0 false t).2)
    | _ => (out, bad, after, s)
  let (bad, s) := if after then (bad, s) else
    let ((b, _), t) := argNumber s
    (bad || b, t)
  match s with
  | [] => (out ++ bs "%!(NOVERB)", [])
  | _ =>
    let (verb, rest) := verbOf s
    if verb = [37] then (out ++ [37], rest)
    else if bad then (out ++ bs "%!" ++ verb ++ bs "(BADINDEX)", rest)
    else (out ++ bs "%!" ++ verb ++ bs "(MISSING)", rest)

/-- `fmt.Sprintf(format)`; `fuel` bounds the number of steps, the length of the format is enough. -/
def sprintfAux : Nat → Str → Str
  | 0, _ => []
  | _ + 1, [] => []
  | fuel + 1, c :: t => if c = 37 then let p := directive t; p.1 ++ sprintfAux fuel p.2 else c :: sprintfAux fuel t
def sprintf (format : Str) : Str := sprintfAux (format.length + 1) format

end Fprintf

example : Fprintf.sprintf (bs "50% x") = bs "50%!x(MISSING)" := by decide +kernel
example : Fprintf.sprintf (bs "a%%b%d%5.3f%[2]d%*x%") = bs "a%b%!d(MISSING)%!f(MISSING)%!d(BADINDEX)%!(BADWIDTH)%!x(MISSING)%!(NOVERB)" := by
  decide +kernel
