import Verif.Model.Base
import Verif.Model.F64
import Mathlib.Data.Nat.Log
/-!
# Number formatting (Go `strconv`)
The parts of `strconv` used by /repo: `AppendInt(x, 10)` and `AppendFloat(v, 'f', prec, 64)` with `prec = 2` and `prec = -1`.
`AppendFloat` with a precision is exact decimal rounding, ties to even (strconv/ftoa.go `bigFtoa`, decimal.go `Round`); with
precision -1 it yields the shortest decimal that reads back as the same float64, and the closest such one.
-/

/-- ASCII digit. -/
def digitChar (d : Nat) : UInt8 := UInt8.ofNat (48 + d)

/-- decimal digits of `n`, `fuel` at least the number of digits. -/
def natDigitsAux : Nat → Nat → Str → Str
  | 0, _, acc => acc
  | fuel + 1, n, acc =>
    let acc := digitChar (n % 10) :: acc
    if n < 10 then acc else natDigitsAux fuel (n / 10) acc

/-- `strconv.AppendInt(_, n, 10)` for `n ≥ 0`. -/
def natStr (n : Nat) : Str := natDigitsAux (Nat.log2 n + 1) n []

/-- `strconv.AppendInt(_, n, 10)`. -/
def intStr (n : Int) : Str := if n < 0 then 45 :: natStr n.natAbs else natStr n.natAbs

/-- exactly `w` digits of `n` (the last ones), with leading zeros. -/
def padDigits : Nat → Nat → Str
  | 0, _ => []
  | w + 1, n => padDigits w (n / 10) ++ [digitChar (n % 10)]

/-- `m / 10^prec` written with `prec` digits after the point (no point if `prec = 0`). -/
def fixedStr (m prec : Nat) : Str :=
  natStr (m / 10 ^ prec) ++ (if prec = 0 then [] else 46 :: padDigits prec m)

def signStr (neg : Bool) : Str := if neg then [45] else []

/-- nearest integer to a non-negative rational, ties to even, as a natural number. -/
def roundNat (q : ℚ) : Nat := (F64.roundEven q).toNat

/-- `strconv.AppendFloat(_, v, 'f', prec, 64)` for `prec ≥ 0`. -/
def fmtFixed (v : F64) (prec : Nat) : Str :=
  match v with
  | .nan => bs "NaN"
  | .inf neg => if neg then bs "-Inf" else bs "+Inf"
  | .negZero => signStr true ++ fixedStr 0 prec
  | .fin q => signStr (decide (q < 0)) ++ fixedStr (roundNat (|q| * 10 ^ prec)) prec

/-- Search for the shortest decimal: `d` is the number of digits after the point (may be negative). -/
def shortestAux (q : ℚ) : Nat → ℤ → Nat × ℤ
  | 0, d => (⌊q * (10:ℚ) ^ d⌋₊, d)
  | fuel + 1, d =>
    let x := q * (10:ℚ) ^ d
    let lo := ⌊x⌋₊
    let hi := ⌈x⌉₊
    let okLo := decide (F64.rnd (lo / (10:ℚ) ^ d) = .fin q)
    let okHi := decide (F64.rnd (hi / (10:ℚ) ^ d) = .fin q)
    if okLo && okHi then (roundNat x, d)
    else if okLo then (lo, d)
    else if okHi then (hi, d)
    else shortestAux q fuel (d + 1)

/-- shortest decimal `m / 10^d` that rounds to the positive float64 `q`. -/
def shortest (q : ℚ) : Nat × ℤ :=
  let d0 := -(Int.log 10 q) - 1
  shortestAux q (1074 - d0).toNat d0

/-- `m / 10^d` in positional notation. -/
def decStr (m : Nat) (d : ℤ) : Str :=
  if d ≤ 0 then natStr (m * 10 ^ (-d).toNat) else fixedStr m d.toNat

/-- `strconv.AppendFloat(_, v, 'f', -1, 64)`. -/
def fmtShortest (v : F64) : Str :=
  match v with
  | .nan => bs "NaN"
  | .inf neg => if neg then bs "-Inf" else bs "+Inf"
  | .negZero => bs "-0"
  | .fin q =>
    if q = 0 then bs "0"
    else
      let p := shortest |q|
      signStr (decide (q < 0)) ++ decStr p.1 p.2

example : intStr (-1203) = bs "-1203" := by decide +kernel
example : fmtFixed (.fin (1/8)) 2 = bs "0.12" ∧ fmtFixed (.fin (3/8)) 2 = bs "0.38" ∧ fmtFixed (.fin (-1/1024)) 2 = bs "-0.00"
  ∧ fmtFixed (.fin 1234) 2 = bs "1234.00" := by decide +kernel
example : fmtShortest (F64.rnd (1/100)) = bs "0.01" ∧ fmtShortest (F64.rnd (-3/1000)) = bs "-0.003" ∧
  fmtShortest (.fin (2^60)) = bs "1152921504606847000" ∧ fmtShortest (.fin (1/2)) = bs "0.5" ∧ fmtShortest (.fin 100) = bs "100" := by
  decide +kernel
