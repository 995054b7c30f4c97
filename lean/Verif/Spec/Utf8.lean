import Verif.Spec.Json
/-!
# Text in UTF-8
-/
namespace Spec

/-- Unicode scalar values. -/
def Scalar (n : Nat) : Prop := n < 0xD800 ∨ (0xE000 ≤ n ∧ n < 0x110000)
/-- the UTF-8 text of some characters. -/
def IsUtf8 (s : Str) : Prop := ∃ cps : List Nat, (∀ n ∈ cps, Scalar n) ∧ s = cps.flatMap utf8

end Spec
