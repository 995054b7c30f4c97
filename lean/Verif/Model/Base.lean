/-!
# Base: Go values used throughout the model

Go `string` and `[]byte` are byte sequences; Go `map` is an association list; Go `int64` wraps around.
-/

/-- Go `string` / `[]byte`: a sequence of bytes. -/
abbrev Str := List UInt8

/-- The bytes of a Go string literal (UTF-8). -/
def bs (s : String) : Str := s.toList.flatMap String.utf8EncodeChar

/-- Go `int64` value of an exact integer: two's complement wrap-around.
Every `+=`/`++` on an `int64` counter in /repo is modelled as `i64 (exact result)`. -/
def i64 (x : Int) : Int := (BitVec.ofInt 64 x).toInt

/-- Go `map[K]V`: association list. The order of the list stands for the (unspecified) iteration order of the
Go map. All maps built by the model have pairwise different keys (`GoMap.Wf`, proved as invariant). -/
abbrev GoMap (K V : Type) := List (K × V)

namespace GoMap
variable {K V W : Type} [DecidableEq K]

/-- `v, ok := m[k]`. -/
def get? (m : GoMap K V) (k : K) : Option V :=
  match m with
  | [] => none
  | (k', v) :: t => if k' = k then some v else get? t k

/-- `m[k] = v`. -/
def set (m : GoMap K V) (k : K) (v : V) : GoMap K V :=
  match m with
  | [] => [(k, v)]
  | (k', v') :: t => if k' = k then (k, v) :: t else (k', v') :: set t k v

/-- `delete(m, k)`. -/
def del (m : GoMap K V) (k : K) : GoMap K V := m.filter (fun p => p.1 ≠ k)

/-- the keys, in iteration order. -/
def keys (m : GoMap K V) : List K := m.map (·.1)

/-- Go maps have pairwise different keys. -/
def Wf (m : GoMap K V) : Prop := (keys m).Nodup

end GoMap

/-- A Go `time.Time` without monotonic clock reading: the instant in nanoseconds since the zero time
(January 1, year 1 UTC) and the identity of the `*Location` pointer.  The code compares times with `==`
(aggregator.go:128, healthd.go:287,314 and as map keys healthd.go:60-64), which compares both. -/
structure Time where
  ns : Int
  loc : Nat
deriving DecidableEq, Repr, Inhabited

/-- `time.Time.Truncate(d)` (Go library): rounds down to a multiple of `d` since the zero time; returns `t` unchanged
(stripped of the monotonic reading) if `d ≤ 0`. Keeps the location. -/
def Time.truncate (t : Time) (d : Int) : Time :=
  if d ≤ 0 then t else { t with ns := t.ns - t.ns % d }
