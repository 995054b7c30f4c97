import Verif.Model.Writer
/-!
# Sinks that panic
Models /repo/health.go:103-181 (the loops over the sinks) and :223-245 (`Run`) when a call of a sink may panic, as the writer sink does
for a nil error (/repo/writer_sink.go:46).  A panic ends the loop and the method of the job and goes to the caller; in `Run` the
deferred function recovers it, whether it comes from `f` or from `Run`'s own `Complete` (health.go:239, :241); a panic of a sink in the
deferred function itself leaves `Run`.
Simplified: sinks do not panic with a nil value; the text of the panic's value is a parameter.
-/
namespace World

/-- when a sink panics: a function of all the calls of sinks so far, the last of which is being made. -/
abbrev Panics := List SinkCall → Bool

/-- the loop `for _, sink := range j.Stream.Sinks`, the body being `f`; `true`: a call has panicked. -/
def callSinks (P : Panics) (f : World → Nat → World) (w : World) : List Nat → World × Bool
  | [] => (w, false)
  | s :: ss => if P (f w s).calls then (f w s, true) else callSinks P f (f w s) ss

/-- health.go:103-181, as `World.emit`; `none`: the call panics. -/
def emitP (clock : Nat → Int) (P : Panics) (w : World) (j : Nat) (c : Call) (inst : MapRef) : World × Option GoErr :=
  match w.jobs[j]? with
  | none => (w, some .nil)
  | some job =>
    match c with
    | .event ev =>
      let (w, kvs) := w.mergedKeyValues job inst
      let (w, p) := callSinks P (fun w s => w.callSink s job.name (.event ev) kvs) w w.sinks
      (w, if p then none else some .nil)
    | .eventErr ev e trace =>
      let (w, e) := w.wrapErr e trace
      let (w, kvs) := w.mergedKeyValues job inst
      let (w, p) := callSinks P (fun w s => w.callSink s job.name (.eventErr ev e) kvs) w w.sinks
      if p then (w, none) else (w.markEmitted e, some e)
    | .timing ev n =>
      let (w, kvs) := w.mergedKeyValues job inst
      let (w, p) := callSinks P (fun w s => w.callSink s job.name (.timing ev n) kvs) w w.sinks
      (w, if p then none else some .nil)
    | .gauge ev v =>
      let (w, kvs) := w.mergedKeyValues job inst
      let (w, p) := callSinks P (fun w s => w.callSink s job.name (.gauge ev v) kvs) w w.sinks
      (w, if p then none else some .nil)
    | .complete st =>
      let (w, kvs) := w.mergedKeyValues job inst
      let (w, p) := callSinks P (fun w s =>
        let n := timeSub (clock w.reads) job.start
        ({ w with reads := w.reads + 1 }).callSink s job.name (.complete st n) kvs) w w.sinks
      (w, if p then none else some .nil)

/-- one operation; `true`: it has panicked. -/
def stepP (clock : Nat → Int) (P : Panics) (w : World) : Op → World × Bool
  | .emit j c kvs => ((w.emitP clock P j c kvs).1, (w.emitP clock P j c kvs).2.isNone)
  | op => (w.step clock op, false)

/-- operations until one panics. -/
def runP (clock : Nat → Int) (P : Panics) (w : World) : List Op → World × Bool
  | [] => (w, false)
  | op :: ops => if (w.stepP clock P op).2 then ((w.stepP clock P op).1, true) else runP clock P (w.stepP clock P op).1 ops

/-- how `Run` ends: as before, or by a panic of its own. -/
inductive RunResultP where
  | returned (e : GoErr)
  | exited
  | panicked
deriving DecidableEq, Repr

/-- health.go:224-235: the deferred function, after a panic with this text. -/
def recoverP (clock : Nat → Int) (P : Panics) (w : World) (j : Nat) (text stackText : Str) (trace : Trace) : World × RunResultP :=
  let (w, r) := w.newMap [(bs "stack", stackText)]
  match w.emitP clock P j (.eventErr (bs "panic") (.other text) trace) (some r) with
  | (w, none) => (w, .panicked)
  | (w, some _) =>
    match w.emitP clock P j (.complete Status.panic) none with
    | (w, none) => (w, .panicked)
    | (w, some _) => (w, .returned (.other text))

/-- health.go:223-245 `Job.Run`, as `World.runJob`; `sinkText` is the text of a panic of a sink. -/
def runJobP (clock : Nat → Int) (P : Panics) (w : World) (j : Nat) (f : List Op) (o : Outcome) (sinkText stackText : Str) (trace : Trace) :
    World × RunResultP :=
  match w.runP clock P f with
  | (w, true) => w.recoverP clock P j sinkText stackText trace
  | (w, false) =>
    match o with
    | .ret .nil =>
      match w.emitP clock P j (.complete Status.success) none with
      | (w, none) => w.recoverP clock P j sinkText stackText trace
      | (w, some _) => (w, .returned .nil)
    | .ret e =>
      match w.emitP clock P j (.complete Status.error) none with
      | (w, none) => w.recoverP clock P j sinkText stackText trace
      | (w, some _) => (w, .returned e)
    | .panic text => w.recoverP clock P j text stackText trace
    | .panicNil => (w, .returned .nil)
    | .goexit => (w, .exited)

/-- the sinks of this set are writer sinks: writer_sink.go:46 panics if the error's `Error` does. -/
def writersPanic (isWriter : Nat → Bool) : Panics := fun calls =>
  match calls.getLast? with
  | some c => isWriter c.sink && (WriterSink.emit 0 c.job c.payload c.seen).isNone
  | none => false

end World
