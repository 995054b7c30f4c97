import Verif.Spec.EndToEnd
import Verif.Spec.HealthdHistory
import Verif.Spec.Program
import Verif.Model.SinkCommands
import Verif.Model.Api
/-!
# Specification: the programs behind the processes
-/
namespace Spec
open Healthd

/-- a program: its calls before and after it adds the polling sink to its stream; `deep`: what `reflect.DeepEqual` sees of its errors. -/
structure Program where
  clock : Nat → Int
  sink : Nat
  before : List World.Op
  after : List World.Op
  deep : GoErr → Option Err

/-- all its calls. -/
def Program.ops (g : Program) : List World.Op := g.before ++ .addSink g.sink :: g.after

/-- a program that can be; it adds the sink once. -/
structure Program.Ok (g : Program) : Prop where
  legal : LegalRun g.clock (World.newStream g.clock) g.ops
  before : World.Op.addSink g.sink ∉ g.before
  after : World.Op.addSink g.sink ∉ g.after

/-- its statements from then on. -/
def Program.statements (g : Program) : List (Str × World.Call) := Spec.statements (jobNames g.before) g.after

/-- `p` is a process that runs the program: what its sink's worker has received are the calls that the stream has made, in any order. -/
def RunsProgram (p : Process) (g : Program) : Prop :=
  (p.hist.flatMap (fun x => emitsOf x.2)).Perm ((heard g.sink ((World.newStream g.clock).run g.clock g.ops)).map (SinkCall.toEmit g.deep))

/-- what the process' sink has received are calls that convey the statements `ms`; the goroutines may have made them in any order. -/
def Speaks (p : Process) (ms : List (Str × World.Call)) : Prop :=
  ∃ (deep : GoErr → Option Err) (hs : List SinkCall), (p.hist.flatMap (fun x => emitsOf x.2)).Perm (hs.map (SinkCall.toEmit deep)) ∧ List.Forall₂ Conveys hs ms

/-- every emission of the process falls into exactly one of the intervals. -/
def Covers (d : Int) (ts : List Time) (p : Process) : Prop :=
  ∀ x ∈ p.hist, emitsOf x.2 ≠ [] → ts.countP (fun t => decide (t.ns ≤ x.1.ns ∧ x.1.ns < t.ns + d)) = 1

/-- healthd is up to date about the interval: no news wait, nothing was thrown away too early, and it has all that the processes emitted in the interval. -/
structure UpToDate (lo : Int → Int) (d : Int) (P : List Process) (h : List Op) (t : Time) : Prop where
  calculated : ¬ Pending d (events d h) t
  purged : Settled d (events d h) t
  zone : ∀ p ∈ P, ∀ x ∈ p.hist, zoneId lo t.ns (p.zone x.1.loc t.ns) = some t.loc
  all : ∀ p ∈ P, madeIn d t.ns p.hist ≠ [] → HasAll lo d t.ns p h

/-- the row's numbers, by the statements of programs. -/
structure RowSays (r : Api.Row) (ms : List (Str × World.Call)) : Prop where
  count : some r.count = sumI (ms.map (adds (.jobCount r.name)))
  success : some r.countSuccess = sumI (ms.map (adds (.jobSuccess r.name)))
  validationError : some r.countValidationError = sumI (ms.map (adds (.jobValidationError r.name)))
  panic : some r.countPanic = sumI (ms.map (adds (.jobPanic r.name)))
  error : some r.countError = sumI (ms.map (adds (.jobErrors r.name)))
  junk : some r.countJunk = sumI (ms.map (adds (.jobJunk r.name)))

end Spec
