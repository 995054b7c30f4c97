import Verif.Model.Utf8
import Verif.Spec.Json
/-!
# JSON as encoding/json sees it
`json.Unmarshal` (Go's encoding/json, decode.go and scanner.go) checks the text and then decodes from it; strings and numbers are still texts when
they reach the decoder.  `Raw` is the document with these texts.  The grammar is that of `Spec/Json.lean`.
-/
open Spec

inductive Raw where
  | null
  | bool (b : Bool)
  /-- the text and the number it stands for -/
  | num (text : Str) (q : ℚ)
  /-- what stands between the quotes, and what `unquote` makes of it (escapes resolved, ill-formed UTF-8 replaced) -/
  | str (text val : Str)
  | arr (xs : List Raw)
  | obj (members : List (Str × Raw))

namespace Raw

/-- the rest of a string after the opening quote: its text, its contents, and what follows the closing quote. -/
def readString (s : Str) : Option ((Str × Str) × Str) :=
  (readToks s).map (fun p => ((s.take (s.length - (p.2.length + 1)), fixUtf8 (joinToks p.1)), p.2))

mutual
def readValue : Nat → Str → Option (Raw × Str)
  | 0, _ => none
  | fuel + 1, s =>
    match ws s with
    | [] => none
    | c :: t =>
      if c = 123 then
        match ws t with
        | 125 :: r => some (.obj [], r)
        | _ => (readMembers fuel t).map (fun p => (.obj p.1, p.2))
      else if c = 91 then
        match ws t with
        | 93 :: r => some (.arr [], r)
        | _ => (readElems fuel t).map (fun p => (.arr p.1, p.2))
      else if c = 34 then (readString t).map (fun p => (.str p.1.1 p.1.2, p.2))
      else if c = 110 then if t.take 3 = bs "ull" then some (.null, t.drop 3) else none
      else if c = 116 then if t.take 3 = bs "rue" then some (.bool true, t.drop 3) else none
      else if c = 102 then if t.take 4 = bs "alse" then some (.bool false, t.drop 4) else none
      else (readNum ((c :: t).takeWhile isNumChar)).map (fun q => (.num ((c :: t).takeWhile isNumChar) q, (c :: t).dropWhile isNumChar))
def readElems : Nat → Str → Option (List Raw × Str)
  | 0, _ => none
  | fuel + 1, s =>
    (readValue fuel s).bind (fun (v, r) =>
    match ws r with
    | 44 :: r => (readElems fuel r).map (fun p => (v :: p.1, p.2))
    | 93 :: r => some ([v], r)
    | _ => none)
def readMembers : Nat → Str → Option (List (Str × Raw) × Str)
  | 0, _ => none
  | fuel + 1, s =>
    match ws s with
    | 34 :: t => (readString t).bind (fun (k, r) =>
      match ws r with
      | 58 :: r => (readValue fuel r).bind (fun (v, r) =>
        match ws r with
        | 44 :: r => (readMembers fuel r).map (fun p => ((k.2, v) :: p.1, p.2))
        | 125 :: r => some ([(k.2, v)], r)
        | _ => none)
      | _ => none)
    | _ => none
end

mutual
/-- how deep arrays and objects are nested. -/
def depth : Raw → Nat
  | .arr xs => 1 + depthElems xs
  | .obj ms => 1 + depthMembers ms
  | _ => 0
def depthElems : List Raw → Nat
  | [] => 0
  | x :: xs => max (depth x) (depthElems xs)
def depthMembers : List (Str × Raw) → Nat
  | [] => 0
  | (_, x) :: xs => max (depth x) (depthMembers xs)
end

/-- scanner.go `checkValid`, with its limit of nesting (`maxNestingDepth`). -/
def parse (s : Str) : Option Raw :=
  match readValue (s.length + 1) s with
  | some (v, r) => if ws r = [] ∧ v.depth ≤ 10000 then some v else none
  | none => none

end Raw
