import Verif.Model.Base
/-!
# UTF-8 as read by Go (`unicode/utf8`)
-/

/-- what `utf8.DecodeRuneInString` finds at the beginning of a string. -/
inductive Rune where
  /-- a byte below 0x80 -/
  | ascii (b : UInt8)
  /-- a well-formed sequence of 2, 3 or 4 bytes -/
  | multi (bytes : Str)
  /-- an ill-formed byte (`RuneError`, size 1) -/
  | bad (b : UInt8)
deriving DecidableEq, Repr

/-- continuation byte. -/
def isCont (b : UInt8) : Bool := decide (0x80 ≤ b ∧ b ≤ 0xBF)
/-- utf8.go `first` and `acceptRanges`: well-formed sequences. -/
def isTwo (b0 b1 : UInt8) : Bool := decide (0xC2 ≤ b0 ∧ b0 ≤ 0xDF) && isCont b1
def isThree (b0 b1 b2 : UInt8) : Bool :=
  ((decide (b0 = 0xE0 ∧ 0xA0 ≤ b1 ∧ b1 ≤ 0xBF)) || (decide (0xE1 ≤ b0 ∧ b0 ≤ 0xEC) && isCont b1) ||
    (decide (b0 = 0xED ∧ 0x80 ≤ b1 ∧ b1 ≤ 0x9F)) || (decide (0xEE ≤ b0 ∧ b0 ≤ 0xEF) && isCont b1)) && isCont b2
def isFour (b0 b1 b2 b3 : UInt8) : Bool :=
  ((decide (b0 = 0xF0 ∧ 0x90 ≤ b1 ∧ b1 ≤ 0xBF)) || (decide (0xF1 ≤ b0 ∧ b0 ≤ 0xF3) && isCont b1) ||
    (decide (b0 = 0xF4 ∧ 0x80 ≤ b1 ∧ b1 ≤ 0x8F))) && isCont b2 && isCont b3

/-- a string cut into runes, as `for range` or repeated `DecodeRuneInString` do. -/
def runes : Str → List Rune
  | [] => []
  | b0 :: t =>
    if b0 < 0x80 then .ascii b0 :: runes t
    else match t with
      | [] => [.bad b0]
      | b1 :: t1 =>
        if isTwo b0 b1 then .multi [b0, b1] :: runes t1
        else match t1 with
          | [] => .bad b0 :: runes [b1]
          | b2 :: t2 =>
            if isThree b0 b1 b2 then .multi [b0, b1, b2] :: runes t2
            else match t2 with
              | [] => .bad b0 :: runes [b1, b2]
              | b3 :: t3 =>
                if isFour b0 b1 b2 b3 then .multi [b0, b1, b2, b3] :: runes t3
                else .bad b0 :: runes (b1 :: b2 :: b3 :: t3)

/-- the bytes of a rune. -/
def Rune.bytes : Rune → Str
  | .ascii b => [b]
  | .multi bs => bs
  | .bad b => [b]

/-- `utf8.ValidString`. -/
def validUtf8 (s : Str) : Bool := (runes s).all (fun | .bad _ => false | _ => true)

/-- ill-formed bytes replaced by U+FFFD, as `strings.ToValidUTF8` and Go's conversions do. -/
def fixUtf8 (s : Str) : Str := (runes s).flatMap (fun | .bad _ => [0xEF, 0xBF, 0xBD] | r => r.bytes)

example : runes (bs "aμ€😀") = [.ascii 97, .multi [206, 188], .multi [226, 130, 172], .multi [240, 159, 152, 128]] := by
  decide +kernel
example : runes [0xC0, 0x80, 97, 0xE2, 0x82] = [.bad 0xC0, .bad 0x80, .ascii 97, .bad 0xE2, .bad 0x82] := by decide +kernel
