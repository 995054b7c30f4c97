import Verif.Spec.Concurrent
import Verif.Spec.System
/-!
# Specification: programs with many goroutines behind the processes
-/
namespace Spec
open Concurrent

/-- the calls of sink `k`, in the order in which they were made. -/
def heardBy (k : Nat) (s : Concurrent.State) : List SinkCall := (s.log.map (·.2)).filter (fun c => c.sink = k)

/-- job names and calls of a goroutine's program. -/
def saidBy (w : World) (p : List Concurrent.Op) : List (Str × World.Call) := (toldIn w p).map (fun m => (m.1, m.2.1))

/-- a program: one goroutine sets up the stream, adding the polling sink between `before` and `after`; then goroutines with the programs `progs` run, as `sched` has it. -/
structure ManyProgram where
  clock : Nat → Int
  sink : Nat
  before : List World.Op
  after : List World.Op
  progs : List (List Concurrent.Op)
  sched : List Nat
  deep : GoErr → Option Err

/-- the stream when the goroutines start. -/
def ManyProgram.world (g : ManyProgram) : World := (World.newStream g.clock).run g.clock (g.before ++ .addSink g.sink :: g.after)

/-- the goroutines keep to the discipline, and `s` is where they have all ended. -/
structure ManyProgram.EndsIn (g : ManyProgram) (s : Concurrent.State) : Prop where
  legal : LegalRun g.clock (World.newStream g.clock) (g.before ++ .addSink g.sink :: g.after)
  before : World.Op.addSink g.sink ∉ g.before
  after : World.Op.addSink g.sink ∉ g.after
  disciplined : ∀ p ∈ g.progs, Disciplined g.world.jobs.length 0 p
  run : Concurrent.run g.clock (start g.world g.progs) g.sched = some s
  ended : ∀ t ∈ s.threads, Ended t

/-- all its statements since the sink was added. -/
def ManyProgram.statements (g : ManyProgram) : List (Str × World.Call) := Spec.statements (jobNames g.before) g.after ++ g.progs.flatMap (saidBy g.world)

/-- what the sink's worker has received are the calls made during the setup and by the goroutines, in any order. -/
def RunsMany (p : Process) (g : ManyProgram) : Prop :=
  ∃ s, g.EndsIn s ∧ (p.hist.flatMap (fun x => emitsOf x.2)).Perm ((heard g.sink g.world ++ heardBy g.sink s).map (SinkCall.toEmit g.deep))

end Spec
