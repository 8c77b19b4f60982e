import Verif.Model.Go
/-
Specification of size arguments (option help text, /repo/src/utils/opts.go:46-47): `X[B|K|M|G]`.
-/
set_option autoImplicit false

namespace Verif.Size

/-- number denoted by a string of decimal digits -/
def decVal : Bytes → Nat
  | [] => 0
  | d :: ds => (d.toNat - 48) * 10 ^ ds.length + decVal ds

/-- the unit suffixes, upper or lower case, and what they stand for -/
inductive Unit : Bytes → Nat → Prop
  | none : Unit [] 1
  | bytes (c : UInt8) : c ∈ ascii "Bb" → Unit [c] 1
  | kilo (c : UInt8) : c ∈ ascii "Kk" → Unit [c] (2 ^ 10)
  | mega (c : UInt8) : c ∈ ascii "Mm" → Unit [c] (2 ^ 20)
  | giga (c : UInt8) : c ∈ ascii "Gg" → Unit [c] (2 ^ 30)

/-- `s` is a size argument with number `m` (the digits) and value `v` -/
inductive Denotes : Bytes → Nat → Int → Prop
  | plus (ds u : Bytes) (k : Nat) : ds ≠ [] → (∀ d ∈ ds, 48 ≤ d ∧ d ≤ 57) → Unit u k →
      Denotes (ds ++ u) (decVal ds) (decVal ds * k)
  | minus (ds u : Bytes) (k : Nat) : ds ≠ [] → (∀ d ∈ ds, 48 ≤ d ∧ d ≤ 57) → Unit u k →
      Denotes (ascii "-" ++ ds ++ u) (decVal ds) (-(decVal ds * k))

end Verif.Size
