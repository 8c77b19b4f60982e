import Verif.Spec.Doc
/-
What the errors of the decoder should say (C104).  The documents are those of Spec/Doc.lean.
-/
set_option autoImplicit false

namespace Verif.DecodeText
open Verif.Bencode Verif.Bencode.Spec Verif.Size

/-- with some more bytes, or none, `p` begins with a document -/
def Live (p : Bytes) : Prop := ∃ ext v b rest, Parses v b ∧ p ++ ext = b ++ rest

/-- the byte `k` is the first one that is wrong: what is before it can be continued, but not with it -/
def FirstWrong (data : Bytes) (k : Nat) : Prop := k < data.length ∧ Live (data.take k) ∧ ¬ Live (data.take (k + 1))

/-- `p` ends with a number that does not fit in 63 bits -/
def Long (p : Bytes) : Prop := ∃ a ds, p = a ++ ds ∧ (∀ d ∈ ds, 48 ≤ d ∧ d ≤ 57) ∧ 2 ^ 63 ≤ decVal ds

/-- `p` ends inside a string, with at least one byte of it -/
def Inside (p : Bytes) : Prop := ∃ a ds s, p = a ++ ds ++ ascii ":" ++ s ∧ Digits ds ∧ s ≠ [] ∧ s.length < decVal ds

/-- `p` ends inside an integer: behind the 'i', perhaps a minus sign, and these digits -/
def InInt (p ds : Bytes) : Prop := ∃ a sg, p = a ++ ascii "i" ++ sg ++ ds ∧ (sg = [] ∨ sg = ascii "-") ∧ ∀ d ∈ ds, 48 ≤ d ∧ d ≤ 57

end Verif.DecodeText
