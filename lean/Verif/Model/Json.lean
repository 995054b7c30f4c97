import Verif.Model.Format
import Verif.Model.Utf8
/-!
# encoding/json: Marshal and MarshalIndent
The parts of Go's `encoding/json` used by /repo (json_writer_sink.go, json_polling_sink_http.go:29, healthd/api.go,
sinks/bugsnag/api.go): values made of integers, floats, strings, booleans, null, slices, structs and maps.  A struct becomes an object with its fields
in order, a map one with its keys in byte order (encode.go `mapEncoder`); this translation is done where the values are built.
Version notes: as in Go ≥ 1.8 (floats like ES6) and Go ≥ 1.22 (`\b` and `\f` for bytes 8 and 12; older versions write \u0008, \u000c).
-/

/-- A value to be encoded. -/
inductive JVal where
  | null
  | bool (b : Bool)
  | int (n : Int)
  | float (v : F64)
  | str (s : Str)
  | arr (xs : List JVal)
  | obj (members : List (Str × JVal))
deriving Repr

namespace JVal

/-- lower-case hexadecimal digit. -/
def hexDigit (n : Nat) : UInt8 := if n < 10 then UInt8.ofNat (48 + n) else UInt8.ofNat (87 + n)

/-- encode.go `appendString` with `escapeHTML = true`, for a byte below 0x80 (`htmlSafeSet`, tables.go). -/
def escByte (b : UInt8) : Str :=
  if b = 34 ∨ b = 92 then [92, b]
  else if b = 8 then [92, 98]
  else if b = 12 then [92, 102]
  else if b = 10 then [92, 110]
  else if b = 13 then [92, 114]
  else if b = 9 then [92, 116]
  else if b < 32 ∨ b = 60 ∨ b = 62 ∨ b = 38 then
    [92, 117, 48, 48, hexDigit (b.toNat / 16), hexDigit (b.toNat % 16)]
  else [b]

/-- one rune: ill-formed bytes are replaced, U+2028 and U+2029 escaped. -/
def escRune : Rune → Str
  | .ascii b => escByte b
  | .multi bytes =>
    if bytes = [0xE2, 0x80, 0xA8] then bs "\\u2028"
    else if bytes = [0xE2, 0x80, 0xA9] then bs "\\u2029"
    else bytes
  | .bad _ => bs "\\ufffd"

/-- a quoted string. -/
def encStr (s : Str) : Str := [34] ++ (runes s).flatMap escRune ++ [34]

/-- scientific notation of `m / 10^d`, `m > 0`: the digits of `m` with a point after the first, and the exponent.  `AppendFloat` writes
at least two exponent digits; encode.go `floatEncoder` turns `e-09` into `e-9` again, and positive exponents are at least 21 here. -/
def expStr (m : Nat) (d : ℤ) : Str :=
  let s := natStr m
  let e : ℤ := s.length - 1 - d
  s.take 1 ++ (if s.length ≤ 1 then [] else 46 :: s.drop 1) ++ [101] ++ (if e < 0 then [45] else [43]) ++ natStr e.natAbs

/-- the float64 constants 1e-6 and 1e21. -/
def micro : F64 := F64.rnd (1 / 1000000)
def sextillion : F64 := F64.rnd (10 ^ 21)

/-- encode.go `floatEncoder.encode` for finite values (bits = 64): shortest text that reads back, positional unless the absolute value
is below 1e-6 or at least 1e21. -/
def floatStr (v : F64) : Str :=
  match v with
  | .fin q =>
    if q = 0 then bs "0"
    else
      let p := shortest |q|
      if F64.lt (.fin |q|) micro || !F64.lt (.fin |q|) sextillion then signStr (decide (q < 0)) ++ expStr p.1 p.2
      else signStr (decide (q < 0)) ++ decStr p.1 p.2
  | _ => fmtShortest v

/-- how composite values are laid out: what is written before an element at a given depth, and between name and value. -/
structure Layout where
  nl : Nat → Str
  colon : Str

/-- `json.Marshal`. -/
def compact : Layout := ⟨fun _ => [], [58]⟩
/-- `json.MarshalIndent(_, "", indent)`: every element on its own line. -/
def indented (indent : Str) : Layout := ⟨fun d => 10 :: (List.replicate d indent).flatten, [58, 32]⟩

mutual
/-- the text of a value at a nesting depth. -/
def enc (L : Layout) (depth : Nat) : JVal → Str
  | .null => bs "null"
  | .bool b => if b then bs "true" else bs "false"
  | .int n => intStr n
  | .float v => floatStr v
  | .str s => encStr s
  | .arr xs => match xs with
    | [] => bs "[]"
    | x :: xs => [91] ++ L.nl (depth + 1) ++ enc L (depth + 1) x ++ encElems L depth xs
  | .obj ms => match ms with
    | [] => bs "{}"
    | (k, v) :: ms => [123] ++ L.nl (depth + 1) ++ encStr k ++ L.colon ++ enc L (depth + 1) v ++ encMembers L depth ms
/-- the elements after the first, and the closing bracket. -/
def encElems (L : Layout) (depth : Nat) : List JVal → Str
  | [] => L.nl depth ++ [93]
  | x :: xs => [44] ++ L.nl (depth + 1) ++ enc L (depth + 1) x ++ encElems L depth xs
/-- the members after the first, and the closing brace. -/
def encMembers (L : Layout) (depth : Nat) : List (Str × JVal) → Str
  | [] => L.nl depth ++ [125]
  | (k, v) :: ms => [44] ++ L.nl (depth + 1) ++ encStr k ++ L.colon ++ enc L (depth + 1) v ++ encMembers L depth ms
end

mutual
/-- no NaN and no infinity inside (encode.go: `UnsupportedValueError`). -/
def encodable : JVal → Bool
  | .float v => v.isFinite
  | .arr xs => encodableElems xs
  | .obj ms => encodableMembers ms
  | _ => true
def encodableElems : List JVal → Bool
  | [] => true
  | x :: xs => encodable x && encodableElems xs
def encodableMembers : List (Str × JVal) → Bool
  | [] => true
  | (_, v) :: ms => encodable v && encodableMembers ms
end

/-- `json.Marshal`; `none` = error. -/
def marshal (v : JVal) : Option Str := if v.encodable then some (v.enc compact 0) else none
/-- `json.MarshalIndent(v, "", indent)`; `none` = error. -/
def marshalIndent (indent : Str) (v : JVal) : Option Str := if v.encodable then some (v.enc (indented indent) 0) else none

end JVal

example : (JVal.obj [(bs "a", .arr [.int (-1), .float (.fin (1/2)), .null]), (bs "b<", .obj []), (bs "c", .str (bs "x\"\ny"))]).marshal =
    some (bs "{\"a\":[-1,0.5,null],\"b\\u003c\":{},\"c\":\"x\\\"\\ny\"}") := by decide +kernel
example : (JVal.obj [(bs "a", .arr [.int 1, .arr []])]).marshalIndent [9] = some (bs "{\n\t\"a\": [\n\t\t1,\n\t\t[]\n\t]\n}") := by
  decide +kernel
example : JVal.floatStr (F64.rnd (1/10000000)) = bs "1e-7" ∧ JVal.floatStr (.fin (2^80)) = bs "1.2089258196146292e+24" ∧
  (JVal.float .nan).marshal = none := by decide +kernel
