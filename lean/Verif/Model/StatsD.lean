import Verif.Model.Aggregation
import Verif.Model.Format
/-!
# StatsD sink
Models /repo/statsd_sink.go: the commands, the key-buffer cache, the UDP buffer and the packets handed to the socket.
Errors of `WriteToUDP` are ignored by the code; a packet counts as sent when it is handed to the socket.
The goroutine, its channels and the ticker are in Verif/Model/StatsDLoop.lean.
-/

/-- statsd_sink.go:12-16 `eventKey`. -/
structure EventKey where
  job : Str
  event : Str
  suffix : Str
deriving DecidableEq, Repr

/-- statsd_sink.go:23-40 `StatsDSinkOptions`.  A `SanitizationFunc` writes to a buffer; modelled as the bytes it appends for a name
(custom functions are assumed to be functions of the name that only append). -/
structure StatsDOpts where
  pfx : Str
  sanitize : Str → Str
  skipNested : Bool
  skipTop : Bool

/-- statsd_sink.go:18-21 `prefixBuffer`: the buffer's contents and the length of the key part. -/
structure PrefixBuffer where
  bytes : Str
  prefixLen : Nat
deriving DecidableEq, Repr

/-- The parts of statsd_sink.go:44-63 `StatsDSink` used by the worker goroutine; `packets` are the datagrams handed to
`WriteToUDP` so far. `timingBuf` is written before every use and is a local value here. -/
structure StatsD where
  opts : StatsDOpts
  udpBuf : Str
  packets : List Str
  prefixBuffers : GoMap EventKey PrefixBuffer

/-- statsd_sink.go:78-85 `statsdEmitCmd`, the emitting kinds. -/
inductive SdCmd where
  | event (job event : Str)
  | eventErr (job event : Str)
  | timing (job event : Str) (nanos : Int)
  | gauge (job event : Str) (value : F64)
  | complete (job : Str) (status : Status) (nanos : Int)
deriving DecidableEq, Repr

/-- statsd_sink.go:88. -/
def maxUdpBytes : Nat := 1440

/-- statsd_sink.go:360-370 `sanitizeKey`. -/
def sanitizeByte (c : UInt8) : UInt8 :=
  if (65 ≤ c ∧ c ≤ 90) ∨ (97 ≤ c ∧ c ≤ 122) ∨ (48 ≤ c ∧ c ≤ 57) ∨ c = 95 ∨ c = 46 then c else 36
def sanitizeKey (s : Str) : Str := s.map sanitizeByte

namespace StatsD

/-- statsd_sink.go:90-123 `NewStatsDSink` (network set-up not modelled). `none` = nil options; a nil `SanitizationFunc` is `none`
inside. -/
def new (options : Option (Str × Option (Str → Str) × Bool × Bool)) : StatsD :=
  let o : StatsDOpts :=
    match options with
    | some (p, f, nested, top) => ⟨p, f.getD sanitizeKey, nested, top⟩
    | none => ⟨[], sanitizeKey, false, false⟩
  ⟨o, [], [], []⟩

/-- statsd_sink.go:337-348 `writeSanitizedKeys`: the loop over the keys. -/
def writeKeys (sanitize : Str → Str) : List Str → Bool → Str → Str
  | [], _, b => b
  | k :: ks, needDot, b =>
    if k ≠ [] then
      let b := if needDot then b ++ [46] else b
      writeKeys sanitize ks true (b ++ sanitize k)
    else writeKeys sanitize ks needDot b

/-- statsd_sink.go:317-335 `getPrefixBuffer`. -/
def getPrefixBuffer (s : StatsD) (key : EventKey) : StatsD × PrefixBuffer :=
  match s.prefixBuffers.get? key with
  | none =>
    let b := writeKeys s.opts.sanitize [s.opts.pfx, key.job, key.event, key.suffix] false [] ++ [58]
    let pb : PrefixBuffer := ⟨b, b.length⟩
    ({ s with prefixBuffers := s.prefixBuffers.set key pb }, pb)
  | some pb =>
    let pb := { pb with bytes := pb.bytes.take pb.prefixLen }
    ({ s with prefixBuffers := s.prefixBuffers.set key pb }, pb)

/-- statsd_sink.go:287-292 `flush`. -/
def flush (s : StatsD) : StatsD :=
  if s.udpBuf.length > 0 then { s with packets := s.packets ++ [s.udpBuf], udpBuf := [] } else s

/-- statsd_sink.go:295-315 `writeStatsDMetric`. -/
def writeMetric (s : StatsD) (b : Str) : StatsD :=
  let lenb := b.length
  if lenb = 0 then s
  else if lenb > maxUdpBytes then s
  else
    let s := if lenb + s.udpBuf.length > maxUdpBytes then { s with packets := s.packets ++ [s.udpBuf], udpBuf := [] } else s
    { s with udpBuf := s.udpBuf ++ b }

/-- the pattern `pb := s.getPrefixBuffer(..); pb.Write..; s.writeStatsDMetric(pb.Bytes())`: the buffer is shared with the
cache entry, so the cache sees the bytes written. -/
def emitLine (s : StatsD) (key : EventKey) (rest : Str) : StatsD :=
  let (s, pb) := s.getPrefixBuffer key
  let pb := { pb with bytes := pb.bytes ++ rest }
  let s := { s with prefixBuffers := s.prefixBuffers.set key pb }
  s.writeMetric pb.bytes

/-- the two blocks guarded by the skip options (statsd_sink.go:209-219 and so on). -/
def emitBoth (s : StatsD) (job event suffix rest : Str) : StatsD :=
  let s := if s.opts.skipTop then s else s.emitLine ⟨[], event, suffix⟩ rest
  if s.opts.skipNested then s else s.emitLine ⟨job, event, suffix⟩ rest

/-- statsd_sink.go:350-358 `writeNanosToTimingBuf`; `10e6` and `1e6` are integer constants here, the division truncates. -/
def timingText (nanos : Int) : Str :=
  if nanos ≥ 10000000 then intStr (nanos.tdiv 1000000)
  else fmtFixed (F64.div (F64.ofInt nanos) (F64.ofInt 1000000)) 2

/-- `float64` constants 0.1 and -0.1. -/
def tenth : F64 := F64.rnd (1/10)
def negTenth : F64 := F64.rnd (-1/10)

/-- statsd_sink.go:255-260: the gauge text. -/
def gaugeText (value : F64) : Str :=
  if F64.lt value tenth && F64.lt negTenth value then fmtShortest value else fmtFixed value 2

/-- statsd_sink.go:193-285 `processCmd` and the functions it calls. -/
def processCmd (s : StatsD) : SdCmd → StatsD
  | .event job event => s.emitBoth job event [] (bs "1|c\n")
  | .eventErr job event => s.emitBoth job event (bs "error") (bs "1|c\n")
  | .timing job event nanos => s.emitBoth job event [] (timingText nanos ++ bs "|ms\n")
  | .gauge job event value => s.emitBoth job event [] (gaugeText value ++ bs "|g\n")
  | .complete job status nanos => s.emitLine ⟨job, [], status.str⟩ (timingText nanos ++ bs "|ms\n")

/-- What the worker does with the sink: process an emission, or flush. -/
inductive Op where
  | cmd (c : SdCmd)
  | flush

def step (s : StatsD) : Op → StatsD
  | .cmd c => s.processCmd c
  | .flush => s.flush

def run (s : StatsD) (ops : List Op) : StatsD := ops.foldl step s

end StatsD
