import Verif.Model.Stream
/-!
# Error objects between the emitting program and the aggregator
Models once more health.go:116-127 (`EventErr`), error.go and interval_aggregation.go:51-57, 94-108, this time with the error objects as objects: the
aggregator keeps pointers to them and compares them with `reflect.DeepEqual`, including the field `Emitted`, which the emitting goroutine sets
after it has handed the error to the sinks, and the frames of the stack trace, which a Bugsnag sink makes `stack.Trace` fill in later.  Any number of goroutines emit; the aggregator's goroutine receives the emissions in the order of the
channel.  One error counter (one job and event) is modelled; the emissions of others do not touch it.
Simplified: the channel is unbounded; the underlying error and the program counters of the stack trace are values (nothing writes to them).
-/
namespace ErrObj

/-- error.go:7-15: a `MutedError` or an `UnmutedError`. -/
structure Obj where
  muted : Bool
  err : Str
  trace : Trace
  /-- are the frames of the trace filled in? (stack/stack.go:25-35) -/
  framed : Bool
  emitted : Bool
deriving DecidableEq, Repr

/-- interval_aggregation.go:51-57, with references to the errors. -/
structure Counter where
  count : Int
  samples : List (Option Nat)
  idx : Nat
deriving DecidableEq, Repr

structure Sys where
  /-- all error objects, by reference -/
  objs : List Obj
  /-- emissions in the sink's channel -/
  chan : List Nat
  counter : Counter
  /-- calls of `EventErr` that have handed the error to the sinks and have not yet set `Emitted` -/
  pending : List Nat
deriving DecidableEq, Repr

inductive Lab where
  /-- `Mute(err)` (error.go:25-27) -/
  | mute (err : Str)
  /-- `EventErr` is given an error that is not wrapped: `wrapErr` wraps it, the sink gets it -/
  | emitNew (err : Str) (trace : Trace)
  /-- `EventErr` is given a muted error, or one that `EventErr` returned before -/
  | emitAgain (o : Nat)
  /-- the call sets `Emitted`, if there is such a field, and returns -/
  | mark (o : Nat)
  /-- a Bugsnag sink asks for the frames of an error it was given (sinks/bugsnag/api.go:131, stack/stack.go:25-35) -/
  | frames (o : Nat)
  /-- the aggregator takes the next emission -/
  | process
deriving DecidableEq, Repr

def init : Sys := ⟨[], [], ⟨0, List.replicate 5 none, 0⟩, []⟩

/-- `reflect.DeepEqual` of two pointers: the same pointer, or the same contents. -/
def deepEqual (objs : List Obj) (a b : Nat) : Bool := a = b ∨ objs[a]? = objs[b]?

/-- interval_aggregation.go:94-108 `incrementAndAddError`, `addError`. -/
def Counter.add (objs : List Obj) (c : Counter) (o : Nat) : Counter :=
  let c := { c with count := i64 (c.count + 1) }
  match (c.samples[c.idx]?).join with
  | none => { c with samples := c.samples.set c.idx (some o) }
  | some last =>
    if deepEqual objs last o = false then
      let idx' := (c.idx + 1) % c.samples.length
      { c with idx := idx', samples := c.samples.set idx' (some o) }
    else c

/-- health.go:123-125: only an `UnmutedError` has the field. -/
def setEmitted (objs : List Obj) (o : Nat) : List Obj :=
  objs.modify o (fun x => if x.muted then x else { x with emitted := true })

/-- stack/stack.go:25-35 `Frames`; only an `UnmutedError` has a trace. -/
def setFramed (objs : List Obj) (o : Nat) : List Obj :=
  objs.modify o (fun x => if x.muted then x else { x with framed := true })

def step (s : Sys) : Lab → Option Sys
  | .mute e => some { s with objs := s.objs ++ [⟨true, e, [], false, false⟩] }
  | .emitNew e t => some { s with objs := s.objs ++ [⟨false, e, t, false, false⟩], chan := s.chan ++ [s.objs.length], pending := s.pending ++ [s.objs.length] }
  | .emitAgain o => if o < s.objs.length then some { s with chan := s.chan ++ [o], pending := s.pending ++ [o] } else none
  | .mark o => if o ∈ s.pending then some { s with objs := setEmitted s.objs o, pending := s.pending.erase o } else none
  | .frames o => some { s with objs := setFramed s.objs o }
  | .process => match s.chan with
    | [] => none
    | o :: t => some { s with chan := t, counter := s.counter.add s.objs o }

def run (s : Sys) (l : List Lab) : Option Sys := l.foldlM step s

/-- interval_aggregation.go:110-127 `getErrorSamples`. -/
def samples (s : Sys) : List Nat := s.counter.samples.filterMap id

end ErrObj
