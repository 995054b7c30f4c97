import Verif.Model.Watch
import Verif.Spec.EndToEnd
/-!
# Specification: what healthd should show after a round of polls
-/
namespace Spec
open Healthd Watch

/-- a process and all it did. -/
def _root_.Watch.Proc.after (p : Proc) (hist : List (Time × AggOp)) : Process := ⟨p.hostPort, p.instanceId, p.retain, p.zone, hist⟩

/-- how many rounds began, besides the first one. -/
def ticks (past : List Item) : Nat := past.countP (fun | .go .tick => true | _ => false)

/-- `before` happened before round `r` began (round 0 begins with healthd). -/
def Begins (r : Nat) (past before : List Item) : Prop :=
  (r = 0 ∧ before = []) ∨ ∃ after, past = before ++ .go .tick :: after ∧ ticks before + 1 = r

/-- no poll outlasts the time between two rounds: when a round begins, the responses of all hosts in the earlier rounds have been sent. -/
def InTime (hosts : List Str) (past : List Item) : Prop :=
  ∀ before after, past = before ++ .go .tick :: after → ∀ r ≤ ticks before, ∀ hp ∈ hosts, Item.go (.deliver r hp) ∈ before

/-- the answers of process `i` that healthd has received, in order. -/
def answersOf (i : Nat) (taken : List Msg) : List Origin :=
  taken.filterMap (fun m => (m.2.bind (·.2)).filter (fun o => o.i = i))

/-- what process `i` had done when it made the last of these answers. -/
def seen (i : Nat) (taken : List Msg) : List (Time × AggOp) :=
  match (answersOf i taken).getLast? with
  | some o => o.hist ++ [(o.now, .read)]
  | none => []

/-- healthd received an answer of process `i` that had the interval that starts at `ns` and everything in it that healthd could have heard of by now (the process may have
forgotten the interval since). -/
def Held (d ns : Int) (p : Proc) (i : Nat) (taken : List Msg) : Prop :=
  madeIn d ns (seen i taken) ≠ [] → ∃ o ∈ answersOf i taken, madeIn d ns (o.hist ++ [(o.now, .read)]) = madeIn d ns (seen i taken) ∧
    ∃ g ∈ retained d p.retain (o.hist ++ [(o.now, .read)]), g.1.ns = ns

/-- process `i` answered the poll of round `r`. -/
def Answered (r i : Nat) (taken : List Msg) : Prop := ∃ x o, (r, some (x, some o)) ∈ taken ∧ o.i = i

/-- processes of ordinary kind, with intervals of length `d`, no two with the same address and identifier; `past`: what they did. -/
structure Ordinary (d : Int) (P : List Proc) (past : List Item) : Prop where
  pos : 0 < d
  fits : -2 ^ 63 ≤ 5 * d ∧ 5 * d < 2 ^ 63
  procs : ∀ (i : Nat) (p : Proc), P[i]? = some p → (p.after (histOf i past)).Ok d
  nodup : (P.map (fun p => (p.hostPort, p.instanceId))).Nodup

end Spec
