import Verif.Spec.StatsD
/-!
# A JSON reader (RFC 8259)
Independent of the encoder: reads a text into a value.  Numbers are read exactly, as rationals.  Strings are byte strings; `\u` escapes
are turned into UTF-8 (a surrogate pair into one code point, a lone surrogate into U+FFFD).
-/
namespace Spec

inductive Json where
  | null
  | bool (b : Bool)
  | num (q : ℚ)
  | str (s : Str)
  | arr (xs : List Json)
  | obj (members : List (Str × Json))

def isWs (c : UInt8) : Bool := c = 32 || c = 9 || c = 10 || c = 13
/-- skip white space. -/
def ws (s : Str) : Str := s.dropWhile isWs

/-- value of a hexadecimal digit. -/
def hexVal (c : UInt8) : Option Nat :=
  if 48 ≤ c ∧ c ≤ 57 then some (c.toNat - 48)
  else if 97 ≤ c ∧ c ≤ 102 then some (c.toNat - 87)
  else if 65 ≤ c ∧ c ≤ 70 then some (c.toNat - 55)
  else none
def hex4 (a b c d : UInt8) : Option Nat := do
  let a ← hexVal a
  let b ← hexVal b
  let c ← hexVal c
  let d ← hexVal d
  return ((a * 16 + b) * 16 + c) * 16 + d

/-- UTF-8 of a code point. -/
def utf8 (n : Nat) : Str :=
  if n < 0x80 then [UInt8.ofNat n]
  else if n < 0x800 then [UInt8.ofNat (0xC0 + n / 64), UInt8.ofNat (0x80 + n % 64)]
  else if n < 0x10000 then [UInt8.ofNat (0xE0 + n / 4096), UInt8.ofNat (0x80 + n / 64 % 64), UInt8.ofNat (0x80 + n % 64)]
  else [UInt8.ofNat (0xF0 + n / 262144), UInt8.ofNat (0x80 + n / 4096 % 64), UInt8.ofNat (0x80 + n / 64 % 64), UInt8.ofNat (0x80 + n % 64)]

/-- a piece of a string: a byte, or the code unit of a `\u` escape. -/
inductive Tok where
  | byte (b : UInt8)
  | unit (u : Nat)

/-- the escapes with one letter. -/
def escVal (e : UInt8) : Option UInt8 :=
  if e = 34 ∨ e = 92 ∨ e = 47 then some e else if e = 98 then some 8 else if e = 102 then some 12
  else if e = 110 then some 10 else if e = 114 then some 13 else if e = 116 then some 9 else none

/-- the rest of a string after the opening quote: its pieces and what follows the closing quote. -/
def readToks : Str → Option (List Tok × Str)
  | [] => none
  | c :: t =>
    if c = 34 then some ([], t)
    else if c = 92 then
      match t with
      | [] => none
      | e :: t =>
        if e = 117 then
          match t with
          | a :: b :: c :: d :: t =>
            (hex4 a b c d).bind (fun u => (readToks t).map (fun p => (.unit u :: p.1, p.2)))
          | _ => none
        else (escVal e).bind (fun x => (readToks t).map (fun p => (.byte x :: p.1, p.2)))
    else if c < 32 then none
    else (readToks t).map (fun p => (.byte c :: p.1, p.2))

/-- the bytes of the pieces. -/
def joinToks : List Tok → Str
  | [] => []
  | .byte b :: t => b :: joinToks t
  | .unit u :: t =>
    if 0xD800 ≤ u ∧ u < 0xDC00 then
      match t with
      | .unit v :: t' =>
        if 0xDC00 ≤ v ∧ v < 0xE000 then utf8 (0x10000 + (u - 0xD800) * 1024 + (v - 0xDC00)) ++ joinToks t'
        else utf8 0xFFFD ++ joinToks (.unit v :: t')
      | t => utf8 0xFFFD ++ joinToks t
    else if 0xDC00 ≤ u ∧ u < 0xE000 then utf8 0xFFFD ++ joinToks t
    else utf8 u ++ joinToks t

/-- the rest of a string after the opening quote: its contents and what follows the closing quote. -/
def readStr (s : Str) : Option (Str × Str) := (readToks s).map (fun p => (joinToks p.1, p.2))

def isNumChar (c : UInt8) : Bool := decide (48 ≤ c ∧ c ≤ 57) || c = 43 || c = 45 || c = 46 || c = 69 || c = 101

/-- `0` or digits without leading zero, optionally a point and digits. -/
def intPart (s : Str) : Str :=
  match cut 46 s with
  | some (a, _) => a
  | none => s
def readMantissa (s : Str) : Option ℚ :=
  let int := intPart s
  if int.length ≥ 2 ∧ int.head? = some 48 then none else parseUnsigned s

/-- optionally signed digits. -/
def readExp (s : Str) : Option ℤ :=
  match s with
  | 45 :: t => if isDigits t then some (-(digitsVal t : ℤ)) else none
  | 43 :: t => if isDigits t then some (digitsVal t) else none
  | _ => if isDigits s then some (digitsVal s) else none

def readUnsigned (s : Str) : Option ℚ :=
  match (cut 101 s).orElse (fun _ => cut 69 s) with
  | none => readMantissa s
  | some (m, e) => do
    let q ← readMantissa m
    let e ← readExp e
    return q * (10:ℚ) ^ e

/-- a number. -/
def readNum (s : Str) : Option ℚ :=
  match s with
  | 45 :: t => (readUnsigned t).map (fun q => -q)
  | _ => readUnsigned s

mutual
def readValue : Nat → Str → Option (Json × Str)
  | 0, _ => none
  | fuel + 1, s =>
    match ws s with
    | [] => none
    | c :: t =>
      if c = 123 then
        match ws t with
        | 125 :: r => some (.obj [], r)
        | _ => (readMembers fuel t).map (fun p => (.obj p.1, p.2))
      else if c = 91 then
        match ws t with
        | 93 :: r => some (.arr [], r)
        | _ => (readElems fuel t).map (fun p => (.arr p.1, p.2))
      else if c = 34 then (readStr t).map (fun p => (.str p.1, p.2))
      else if c = 110 then if t.take 3 = bs "ull" then some (.null, t.drop 3) else none
      else if c = 116 then if t.take 3 = bs "rue" then some (.bool true, t.drop 3) else none
      else if c = 102 then if t.take 4 = bs "alse" then some (.bool false, t.drop 4) else none
      else (readNum ((c :: t).takeWhile isNumChar)).map (fun q => (.num q, (c :: t).dropWhile isNumChar))
/-- elements separated by commas, and the closing bracket. -/
def readElems : Nat → Str → Option (List Json × Str)
  | 0, _ => none
  | fuel + 1, s => do
    let (v, r) ← readValue fuel s
    match ws r with
    | 44 :: r => do
      let (vs, r) ← readElems fuel r
      return (v :: vs, r)
    | 93 :: r => some ([v], r)
    | _ => none
/-- members separated by commas, and the closing brace. -/
def readMembers : Nat → Str → Option (List (Str × Json) × Str)
  | 0, _ => none
  | fuel + 1, s => do
    match ws s with
    | 34 :: t => do
      let (k, r) ← readStr t
      match ws r with
      | 58 :: r => do
        let (v, r) ← readValue fuel r
        match ws r with
        | 44 :: r => do
          let (ms, r) ← readMembers fuel r
          return ((k, v) :: ms, r)
        | 125 :: r => some ([(k, v)], r)
        | _ => none
      | _ => none
    | _ => none
end

/-- a whole document. -/
def readJson (s : Str) : Option Json := do
  let (v, r) ← readValue (s.length + 1) s
  if ws r = [] then some v else none

end Spec

open Spec in
example : readStr (bs "a\\u00e9\\ud83d\\ude00\\n\" rest") = some (bs "aé😀\n", bs " rest") := by decide +kernel
open Spec in
example : readNum (bs "-12.50e+2") = some (-1250) ∧ readNum (bs "01") = none ∧ readNum (bs "1e-7") = some (1/10000000) := by
  decide +kernel
