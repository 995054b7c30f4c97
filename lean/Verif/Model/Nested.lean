import Verif.Model.Stream
/-!
# Functions run by `Run`, with further `Run`s inside
Models /repo/health.go:218-245 for functions that themselves call `Run`, to any depth: what a function does may depend on the errors that
`EventErr` and `Run` gave back to it.  One goroutine; sinks return normally.
-/
namespace Nested
open World

/-- The rest of a function that is given to `Run` (or of the main program): it ends, does something whose result it does not look at, makes a
job and keeps it, logs an error and goes on with the error given back (health.go:116-139), or runs a function in a job and goes on with the
error given back.  `stackText` is what `runtime.Stack` yields at a panic, `trace` what `stack.NewTrace` captures. -/
inductive Prog where
  | ends (o : Outcome)
  | op (o : Op) (rest : Prog)
  | newJob (name : Str) (rest : Nat → Prog)
  | logErr (j : Nat) (event : Str) (err : GoErr) (trace : Trace) (kvs : MapRef) (rest : GoErr → Prog)
  | run (j : Nat) (f : Prog) (stackText : Str) (trace : Trace) (rest : GoErr → Prog)

/-- health.go:224-235: the deferred function of `Run`, when the function run has panicked. -/
def recovered (clock : Nat → Int) (w : World) (j : Nat) (text stackText : Str) (trace : Trace) : World :=
  let (w, r) := w.newMap [(bs "stack", stackText)]
  let w := (w.emit clock j (.eventErr (bs "panic") (.other text) trace) (some r)).1
  (w.emit clock j (.complete Status.panic) none).1

/-- the program on the stream: the stream afterwards, and how the program ends.  `Job.Run` is health.go:223-245: `runtime.Goexit` in the
function run ends the caller's function, too. -/
def exec (clock : Nat → Int) (w : World) : Prog → World × Outcome
  | .ends o => (w, o)
  | .op o rest => exec clock (w.step clock o) rest
  | .newJob name rest => exec clock (w.newJob clock name) (rest w.jobs.length)
  | .logErr j ev e t kvs rest =>
    exec clock (w.emit clock j (.eventErr ev e t) kvs).1 (rest (w.emit clock j (.eventErr ev e t) kvs).2)
  | .run j f stackText trace rest =>
    let (w, o) := exec clock w f
    match o with
    | .ret .nil => exec clock (w.emit clock j (.complete Status.success) none).1 (rest .nil)
    | .ret e => exec clock (w.emit clock j (.complete Status.error) none).1 (rest e)
    | .panic text => exec clock (recovered clock w j text stackText trace) (rest (.other text))
    | .panicNil => exec clock w (rest .nil)
    | .goexit => (w, .goexit)

/-- health.go:218-221 `Stream.Run`. -/
def streamRun (name : Str) (f : Nat → Prog) (stackText : Str) (trace : Trace) (rest : GoErr → Prog) : Prog :=
  .newJob name (fun j => .run j (f j) stackText trace rest)

end Nested
