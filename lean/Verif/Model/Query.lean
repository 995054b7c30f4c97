import Verif.Model.Base
/-!
# URL query parameters
Models the parts of net/url that /repo uses: `Values.Encode` (cmd/healthtop/jobs.go:56-65) and `URL.Query().Get`
(healthd/api.go:213, 217).
-/
namespace Query

/-- net/url `shouldEscape` in mode encodeQueryComponent: letters, digits and `-_.~` stay. -/
def plain (c : UInt8) : Bool :=
  (97 ≤ c && c ≤ 122) || (65 ≤ c && c ≤ 90) || (48 ≤ c && c ≤ 57) || c == 45 || c == 95 || c == 46 || c == 126

/-- "0123456789ABCDEF"[n]. -/
def upperHex (n : UInt8) : UInt8 := if n < 10 then 48 + n else 55 + n

/-- net/url `escape`. -/
def escape (s : Str) : Str :=
  s.flatMap (fun c => if c = 32 then [43] else if plain c then [c] else [37, upperHex (c / 16), upperHex (c % 16)])

def unhex (c : UInt8) : Option UInt8 :=
  if 48 ≤ c ∧ c ≤ 57 then some (c - 48)
  else if 97 ≤ c ∧ c ≤ 102 then some (c - 87)
  else if 65 ≤ c ∧ c ≤ 70 then some (c - 55)
  else none

/-- net/url `unescape` in mode encodeQueryComponent; `none` = error. -/
def unescape : Str → Option Str
  | [] => some []
  | c :: t =>
    if c = 37 then
      match t with
      | a :: b :: t' => do
        let h ← unhex a
        let l ← unhex b
        let r ← unescape t'
        return (h * 16 + l) :: r
      | _ => none
    else (unescape t).map (fun r => (if c = 43 then 32 else c) :: r)

/-- `strings.Cut` at a byte: before and after (everything and nothing if it does not occur). -/
def cut (c : UInt8) : Str → Str × Str
  | [] => ([], [])
  | x :: t => if x = c then ([], t) else (x :: (cut c t).1, (cut c t).2)

/-- the pieces between separators. -/
def split (c : UInt8) : Str → List Str
  | [] => [[]]
  | x :: t =>
    match split c t with
    | [] => [[x]]
    | p :: ps => if x = c then [] :: p :: ps else (x :: p) :: ps

/-- net/url `parseQuery`: bad pieces are left out, the others kept in order. -/
def parse (q : Str) : List (Str × Str) :=
  (split 38 q).filterMap (fun piece =>
    if 59 ∈ piece then none
    else if piece = [] then none
    else do
      let k ← unescape (cut 61 piece).1
      let v ← unescape (cut 61 piece).2
      return (k, v))

/-- `Values.Get`: the first value, "" if there is none. -/
def get (vs : List (Str × Str)) (k : Str) : Str := ((vs.find? (fun p => p.1 = k)).map (·.2)).getD []

def pair (p : Str × Str) : Str := escape p.1 ++ [61] ++ escape p.2

/-- `Values.Encode` of parameters in the order of their names (the caller sees to that). -/
def encode : List (Str × Str) → Str
  | [] => []
  | [p] => pair p
  | p :: q :: t => pair p ++ [38] ++ encode (q :: t)

end Query
