import Verif.Model.Heap
/-!
# What it means to share memory
Reachability, what a reader sees, and what any code can do that holds certain pointers.
-/
namespace Spec.Memory
open Mem

/-- the pointers in an object. -/
def pointers : Cell → List Addr
  | .int _ _ jobs ms => [jobs, ms.timers, ms.gauges, ms.events, ms.eventErrs]
  | .job ms _ _ => [ms.timers, ms.gauges, ms.events, ms.eventErrs]
  | .refs m => m.map (·.2)
  | .array l => l
  | .timer _ => []
  | .errs _ => []
  | .floats _ => []
  | .ints _ => []

/-- `b` can be reached from `a` by following pointers. -/
inductive Reach (h : Heap) (a : Addr) : Addr → Prop where
  | here : Reach h a a
  | step {b c : Addr} {cell : Cell} : Reach h a b → h.cells[b]? = some cell → c ∈ pointers cell → Reach h a c

/-- the maps of an aggregation, as a reader sees them. -/
def readTimer (h : Heap) (a : Addr) : Option TimerAgg :=
  match h.cells[a]? with
  | some (.timer t) => some t
  | _ => none
def readErrs (h : Heap) (a : Addr) : Option ErrorCounter :=
  match h.cells[a]? with
  | some (.errs e) => some e
  | _ => none
def readRefs {V : Type} (h : Heap) (read : Addr → Option V) (a : Addr) : Option (GoMap Str V) :=
  match h.cells[a]? with
  | some (.refs m) => m.mapM (fun p => (read p.2).map fun v => (p.1, v))
  | _ => none
def readFloats (h : Heap) (a : Addr) : Option (GoMap Str F64) :=
  match h.cells[a]? with
  | some (.floats m) => some m
  | _ => none
def readInts (h : Heap) (a : Addr) : Option (GoMap Str Int) :=
  match h.cells[a]? with
  | some (.ints m) => some m
  | _ => none
def readMaps (h : Heap) (ms : Maps) : Option AggMaps := do
  some ⟨← readRefs h (readTimer h) ms.timers, ← readFloats h ms.gauges, ← readInts h ms.events, ← readRefs h (readErrs h) ms.eventErrs⟩
def readJob (h : Heap) (a : Addr) : Option JobAgg :=
  match h.cells[a]? with
  | some (.job ms t c) => do some ⟨← readMaps h ms, t, c.success, c.validationError, c.panic, c.error, c.junk⟩
  | _ => none
/-- an aggregation, as a reader of the pointer sees it. -/
def readInt (h : Heap) (a : Addr) : Option IntAgg :=
  match h.cells[a]? with
  | some (.int start serial jobs ms) => do some ⟨start, serial, ← readRefs h (readJob h) jobs, ← readMaps h ms⟩
  | _ => none
/-- a slice of aggregations, as a reader sees it. -/
def readSlice (h : Heap) (a : Addr) : Option (List IntAgg) :=
  match h.cells[a]? with
  | some (.array l) => l.mapM (readInt h)
  | _ => none

/-- What any code can do that holds the pointers in `K`: follow pointers, make new objects, overwrite objects it can get at; it can only use
pointers that it has. -/
inductive Client : Heap → (Addr → Prop) → Heap → (Addr → Prop) → Prop where
  | done {h : Heap} {K : Addr → Prop} : Client h K h K
  | follow {h h' : Heap} {K K' : Addr → Prop} {a b : Addr} {c : Cell} : Client h K h' K' → K' a → h'.cells[a]? = some c → b ∈ pointers c →
      Client h K h' (fun x => K' x ∨ x = b)
  | make {h h' h'' : Heap} {K K' : Addr → Prop} {c : Cell} {n : Addr} : Client h K h' K' → (∀ b ∈ pointers c, K' b) →
      alloc c h' = some (n, h'') → Client h K h'' (fun x => K' x ∨ x = n)
  | overwrite {h h' h'' : Heap} {K K' : Addr → Prop} {a : Addr} {c : Cell} : Client h K h' K' → K' a → (∀ b ∈ pointers c, K' b) →
      store a c h' = some ((), h'') → Client h K h'' K'

/-- Two pieces of code, one with the pointers in `K`, the other one with those in `L`, run in turns. -/
inductive Duo : Heap → (Addr → Prop) → (Addr → Prop) → Heap → (Addr → Prop) → (Addr → Prop) → Prop where
  | done {h : Heap} {K L : Addr → Prop} : Duo h K L h K L
  | left {h h' h'' : Heap} {K K' K'' L L' : Addr → Prop} : Duo h K L h' K' L' → Client h' K' h'' K'' → Duo h K L h'' K'' L'
  | right {h h' h'' : Heap} {K K' L L' L'' : Addr → Prop} : Duo h K L h' K' L' → Client h' L' h'' L'' → Duo h K L h'' K' L''

/-- whatever can be reached from `K` exists and cannot be reached from `L`, and vice versa. -/
structure Separate (h : Heap) (K L : Addr → Prop) : Prop where
  apart : ∀ k l x, K k → L l → Reach h k x → ¬Reach h l x
  left : ∀ k x, K k → Reach h k x → x < h.cells.length
  right : ∀ l x, L l → Reach h l x → x < h.cells.length

/-- there are no dangling pointers (in Go there never are). -/
def NoDangling (h : Heap) : Prop := ∀ (x : Addr) (c : Cell), h.cells[x]? = some c → ∀ b ∈ pointers c, b < h.cells.length

/-- the objects of an aggregation, listed once for every way to get to them. -/
def objRefs (h : Heap) (obj : Addr → List Addr) (a : Addr) : List Addr :=
  a :: match h.cells[a]? with
    | some (.refs m) => m.flatMap fun p => obj p.2
    | _ => []
def objMaps (h : Heap) (ms : Maps) : List Addr :=
  objRefs h (fun a => [a]) ms.timers ++ (ms.gauges :: ms.events :: objRefs h (fun a => [a]) ms.eventErrs)
def objJob (h : Heap) (a : Addr) : List Addr :=
  a :: match h.cells[a]? with
    | some (.job ms _ _) => objMaps h ms
    | _ => []
def objInt (h : Heap) (a : Addr) : List Addr :=
  a :: match h.cells[a]? with
    | some (.int _ _ jobs ms) => objRefs h (objJob h) jobs ++ objMaps h ms
    | _ => []

/-- was `a` written between `h` and the later `h'`? -/
def WrittenSince (h h' : Heap) (a : Addr) : Prop := a ∈ h'.written.take (h'.written.length - h.written.length)

end Spec.Memory
