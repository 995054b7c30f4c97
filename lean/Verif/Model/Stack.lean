import Verif.Model.Format
/-!
# Stack frames
Models /repo/stack/frame.go and /repo/stack/stack.go.  What the Go runtime knows about a program counter (`runtime.FuncForPC`,
`Func.Name`, `Func.FileLine`) and `runtime.GOROOT()` are parameters.
-/
namespace Stack

/-- `strings.LastIndex(s, c)` for a one-byte string; −1 = `none`. -/
def lastIndex (c : UInt8) : Str → Option Nat
  | [] => none
  | a :: t =>
    match lastIndex c t with
    | some i => some (i + 1)
    | none => if a = c then some 0 else none

/-- `strings.Index(s, c)` for a one-byte string; −1 = `none`. -/
def index (c : UInt8) : Str → Option Nat
  | [] => none
  | a :: t => if a = c then some 0 else (index c t).map (· + 1)

/-- frame.go:49-64 `packageAndName`, as a function of `fn.Name()`. -/
def packageAndName (full : Str) : Str × Str :=
  let pkg : Str := []
  let name := full
  let (pkg, name) := match lastIndex 47 name with
    | some i => (pkg ++ (name.take i ++ [47]), name.drop (i + 1))
    | none => (pkg, name)
  match index 46 name with
  | some i => (pkg ++ name.take i, name.drop (i + 1))
  | none => (pkg, name)

/-- frame.go:12-19 `Frame`. -/
structure Frame where
  file : Str
  line : Int
  name : Str
  package : Str
  isSystem : Bool
  pc : Nat
deriving DecidableEq, Repr

/-- what the runtime says about a program counter: `none` if `FuncForPC` is nil, else the function's name, and its `FileLine`. -/
structure Runtime where
  func : Nat → Option Str
  fileLine : Nat → Str × Int
  goroot : Str

/-- frame.go:69-71 `isSystemPackage` (`strings.HasPrefix`). -/
def isSystemPackage (rt : Runtime) (file : Str) : Bool := rt.goroot.isPrefixOf file

/-- frame.go:22-35 `NewFrame` and :38-43 `Func`. -/
def newFrame (rt : Runtime) (pc : Nat) : Frame :=
  let none' : Frame := ⟨[], 0, [], [], false, pc⟩
  if pc = 0 then none'
  else match rt.func pc with
    | none => none'
    | some full =>
      let (pkg, name) := packageAndName full
      let (file, line) := rt.fileLine (pc - 1)
      ⟨file, line, name, pkg, isSystemPackage rt file, pc⟩

/-- stack.go:9 `MaxStackDepth`. -/
def maxStackDepth : Nat := 50

/-- stack.go:16-22 `NewTrace`: `runtime.Callers(2+skip, …)` stores the program counters of the calls from the one `skip` frames above
`NewTrace`'s caller on, as many as fit.  `callers` are all frames of the goroutine, innermost first, the first being
`runtime.Callers` itself, the second `NewTrace`. -/
def newTrace (callers : List Nat) (skip : Nat) : List Nat := (callers.drop (2 + skip)).take maxStackDepth

/-- stack.go:25-35 `Frames` (the cache only avoids computing it again). -/
def frames (rt : Runtime) (trace : List Nat) : List Frame := trace.map (newFrame rt)

/-- frame.go:45-47 `Frame.String`. -/
def Frame.text (f : Frame) : Str := f.file ++ [58] ++ intStr f.line ++ [32] ++ f.name

/-- stack.go:38-47 `Stack`. -/
def text (rt : Runtime) (trace : List Nat) : Str := (frames rt trace).flatMap (fun f => f.text ++ [10])

end Stack

example : Stack.packageAndName (bs "github.com/gocraft/health.(*Job).Run.func1") = (bs "github.com/gocraft/health", bs "(*Job).Run.func1") ∧
    Stack.packageAndName (bs "main.main") = (bs "main", bs "main") ∧ Stack.packageAndName (bs "gopkg.in/x") = (bs "gopkg.in/", bs "x") := by decide +kernel
