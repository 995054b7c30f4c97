import Mathlib.Data.Int.Log
import Mathlib.Data.Rat.Floor
/-!
# F64: IEEE-754 binary64 (`float64`)

A Go `float64` is NaN, ±Inf, -0 or a finite number.  Finite numbers are represented by their exact rational value (`+0` is
`fin 0`).  All operations compute exactly in ℚ and round once, to nearest with ties to even, as Go's
amd64/arm64 code does for `+ - * /`, `math.Sqrt` and `float64(int64)` conversion (fused multiply-add, which the Go
specification permits on some architectures, is not modelled).  NaN payloads are not modelled.
-/

inductive F64 where
  | nan
  | inf (neg : Bool)
  | negZero
  | fin (q : ℚ)
deriving DecidableEq, Repr

namespace F64

/-- nearest integer, ties to even. -/
def roundEven (x : ℚ) : ℤ :=
  let f := ⌊x⌋
  let r := x - f
  if r < 1/2 then f else if 1/2 < r then f + 1 else if f % 2 = 0 then f else f + 1

/-- exponent of the unit in the last place of the binary64 numbers near `q ≠ 0`: 53 significant bits, but not below the
subnormal unit 2^-1074. -/
def ulpExp (q : ℚ) : ℤ := max (Int.log 2 |q| - 52) (-1074)

/-- nearest multiple of the unit in the last place. -/
def rndQ (q : ℚ) : ℚ := roundEven (q / (2:ℚ) ^ ulpExp q) * (2:ℚ) ^ ulpExp q

/-- rounding of an exact non-zero-or-zero result: overflow to ±Inf, underflow to ±0. -/
def rnd (q : ℚ) : F64 :=
  let r := rndQ q
  if (2:ℚ) ^ (1024:ℤ) ≤ |r| then inf (decide (q < 0))
  else if r = 0 ∧ q < 0 then negZero
  else fin r

/-- `float64(n)` for an integer. -/
def ofInt (n : ℤ) : F64 := rnd n

def isNeg : F64 → Bool
  | nan => false
  | inf s => s
  | negZero => true
  | fin q => decide (q < 0)

/-- exact value of a finite number (0 for the others; only used under guards). -/
def toRat : F64 → ℚ
  | fin q => q
  | _ => 0

def isFinite : F64 → Bool
  | negZero => true
  | fin _ => true
  | _ => false

def isNaN : F64 → Bool
  | nan => true
  | _ => false

/-- signed zero. -/
def zero (s : Bool) : F64 := if s then negZero else fin 0

/-- `a + b`. -/
def add (a b : F64) : F64 :=
  match a, b with
  | nan, _ => nan
  | _, nan => nan
  | inf s, inf t => if s = t then inf s else nan
  | inf s, _ => inf s
  | _, inf t => inf t
  | negZero, negZero => negZero
  | a, b => rnd (a.toRat + b.toRat)

def neg : F64 → F64
  | nan => nan
  | inf s => inf (!s)
  | negZero => fin 0
  | fin q => if q = 0 then negZero else fin (-q)

/-- `a - b`. -/
def sub (a b : F64) : F64 := add a (neg b)

/-- `a * b`. -/
def mul (a b : F64) : F64 :=
  let s := xor a.isNeg b.isNeg
  match a, b with
  | nan, _ => nan
  | _, nan => nan
  | inf _, b => if b = fin 0 ∨ b = negZero then nan else inf s
  | a, inf _ => if a = fin 0 ∨ a = negZero then nan else inf s
  | a, b => if a.toRat * b.toRat = 0 then zero s else rnd (a.toRat * b.toRat)

/-- `a / b`. -/
def div (a b : F64) : F64 :=
  let s := xor a.isNeg b.isNeg
  match a, b with
  | nan, _ => nan
  | _, nan => nan
  | inf _, inf _ => nan
  | inf _, _ => inf s
  | _, inf _ => zero s
  | a, b =>
    if b.toRat = 0 then (if a.toRat = 0 then nan else inf s)
    else if a.toRat = 0 then zero s
    else rnd (a.toRat / b.toRat)

/-- `math.Sqrt`: correctly rounded square root; NaN for negative arguments.  `s` is the integer square root with more
than 53 significant bits and a sticky half. -/
def sqrt : F64 → F64
  | nan => nan
  | inf s => if s then nan else inf false
  | negZero => negZero
  | fin q =>
    if q < 0 then nan
    else if q = 0 then fin 0
    else
      let k : ℤ := 60 - Int.log 2 q / 2
      let x := q * (4:ℚ) ^ k
      let s := Nat.sqrt ⌊x⌋₊
      rnd (((s : ℚ) + (if (s : ℚ) * s = x then 0 else 1/2)) / (2:ℚ) ^ k)

/-- `a < b`. -/
def lt (a b : F64) : Bool :=
  match a, b with
  | nan, _ => false
  | _, nan => false
  | inf s, inf t => s && !t
  | inf s, _ => s
  | _, inf t => !t
  | a, b => decide (a.toRat < b.toRat)

end F64
