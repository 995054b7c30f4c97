import Verif.Model.StatsD
/-!
# Specification of the StatsD sink
The metrics an emission stands for, their wire format, and a parser for datagrams.
-/
namespace Spec

/-- one StatsD metric. -/
structure Metric where
  key : Str
  value : Str
  type : Str
deriving DecidableEq, Repr

/-- `key:value|type\n`. -/
def Metric.line (m : Metric) : Str := m.key ++ bs ":" ++ m.value ++ bs "|" ++ m.type ++ bs "\n"

/-- join the non-empty names with dots. -/
def metricKey (sanitize : Str → Str) (names : List Str) : Str :=
  [(46 : UInt8)].intercalate ((names.filter (· ≠ [])).map sanitize)

/-- the metrics that an emission should give, top level first. -/
def metricsOf (o : StatsDOpts) (c : SdCmd) : List Metric :=
  let both (job event suffix value type : Str) : List Metric :=
    (if o.skipTop then [] else [⟨metricKey o.sanitize [o.pfx, event, suffix], value, type⟩]) ++
    (if o.skipNested then [] else [⟨metricKey o.sanitize [o.pfx, job, event, suffix], value, type⟩])
  match c with
  | .event j e => both j e [] (bs "1") (bs "c")
  | .eventErr j e => both j e (bs "error") (bs "1") (bs "c")
  | .timing j e n => both j e [] (StatsD.timingText n) (bs "ms")
  | .gauge j e v => both j e [] (StatsD.gaugeText v) (bs "g")
  | .complete j st n => [⟨metricKey o.sanitize [o.pfx, j, st.str], StatsD.timingText n, bs "ms"⟩]

/-- short enough to be sent at all. -/
def Metric.fits (m : Metric) : Bool := decide (m.line.length ≤ 1440)

/-- the metrics that a history should send, in order. -/
def sent (o : StatsDOpts) (ops : List StatsD.Op) : List Metric :=
  (ops.flatMap (fun | .cmd c => metricsOf o c | .flush => [])).filter Metric.fits

/-- cut at the first occurrence of a separator. -/
def cut (sep : UInt8) : Str → Option (Str × Str)
  | [] => none
  | c :: t => if c = sep then some ([], t) else (cut sep t).map (fun p => (c :: p.1, p.2))

/-- the lines of a datagram, all of them terminated by a newline; `fuel` = number of bytes. -/
def parseLines : Nat → Str → Option (List Metric)
  | _, [] => some []
  | 0, _ => none
  | fuel + 1, s => do
    let (line, rest) ← cut 10 s
    let (key, r) ← cut 58 line
    let (value, type) ← cut 124 r
    let ms ← parseLines fuel rest
    return ⟨key, value, type⟩ :: ms

/-- the metrics in a datagram, as a StatsD server reads it. -/
def parsePacket (s : Str) : Option (List Metric) := parseLines s.length s

/-- no separator in key, value and type. -/
def Clean (s : Str) : Prop := ∀ c ∈ s, c ≠ 10 ∧ c ≠ 58 ∧ c ≠ 124

/-- value of a decimal number `[-]digits[.digits]`. -/
def digitsVal (s : Str) : Nat := s.foldl (fun a c => 10 * a + (c.toNat - 48)) 0
def isDigits (s : Str) : Bool := !s.isEmpty && s.all (fun c => decide (48 ≤ c ∧ c ≤ 57))
def parseUnsigned (s : Str) : Option ℚ :=
  match cut 46 s with
  | none => if isDigits s then some (digitsVal s) else none
  | some (a, b) =>
    if isDigits a && isDigits b then some (digitsVal a + (digitsVal b : ℚ) / 10 ^ b.length) else none
def parseDec (s : Str) : Option ℚ :=
  match s with
  | 45 :: t => (parseUnsigned t).map (fun q => -q)
  | _ => parseUnsigned s

end Spec
