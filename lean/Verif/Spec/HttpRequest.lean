import Verif.Model.HttpRequest
/-! How a server reads the credentials of a request: RFC 7617 (Basic) and RFC 4648 (base64), for C100. -/
namespace ServerAuth

/-- RFC 4648, table 1, backwards. -/
def digit (c : UInt8) : Option Nat :=
  if 65 ≤ c ∧ c ≤ 90 then some (c.toNat - 65) else if 97 ≤ c ∧ c ≤ 122 then some (c.toNat - 71)
  else if 48 ≤ c ∧ c ≤ 57 then some (c.toNat + 4) else if c = 43 then some 62 else if c = 47 then some 63 else none

/-- RFC 4648, section 4: groups of four; the last may be padded. -/
def decode : Str → Option Str
  | [] => some []
  | p :: q :: r :: s :: rest => do
    let x ← digit p
    let y ← digit q
    if r = 61 then
      if s = 61 ∧ rest = [] then some [UInt8.ofNat (x * 4 + y / 16)] else none
    else
      let z ← digit r
      if s = 61 then
        if rest = [] then some [UInt8.ofNat (x * 4 + y / 16), UInt8.ofNat (y * 16 + z / 4)] else none
      else
        let w ← digit s
        let more ← decode rest
        some (UInt8.ofNat (x * 4 + y / 16) :: UInt8.ofNat (y * 16 + z / 4) :: UInt8.ofNat (z * 64 + w) :: more)
  | _ => none

/-- the text before the first colon and the text behind it. -/
def cut : Str → Option (Str × Str)
  | [] => none
  | c :: s => if c = 58 then some ([], s) else (cut s).map (fun p => (c :: p.1, p.2))

/-- RFC 7617: user and password of a request. -/
def credentials (r : HttpRequest) : Option (Str × Str) := do
  let h ← (r.headers.find? (fun p => p.1 == bs "Authorization")).map (·.2)
  if h.take 6 = bs "Basic " then cut (← decode (h.drop 6)) else none

/-- RFC 9110, section 5.5: may this be the value of a header?  (No control characters: nothing can be put behind it.) -/
def fieldValue (v : Str) : Prop := ∀ c ∈ v, 32 ≤ c ∧ c ≠ 127

end ServerAuth
