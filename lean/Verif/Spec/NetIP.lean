import Verif.Props.Dial
/-
Independent description of the texts that name addresses (RFC 4291, section 2.2, and the dotted notation of IPv4), and of the text that an address is given (RFC 5952, section 4).
-/
set_option autoImplicit false

namespace Verif.NetIP.Spec
open Verif.Bencode Verif.Bencode.Spec Verif.Peer Verif.Dial

/-- a digit and its value, in lower or upper case -/
def Digit (c : UInt8) (d : Nat) : Prop := (ascii "0123456789abcdef")[d]? = some c ∨ (ascii "0123456789ABCDEF")[d]? = some c

/-- digits and the number that they write -/
inductive Hex : Bytes → Nat → Prop where
  | nil : Hex [] 0
  | snoc (t : Bytes) (n : Nat) (c : UInt8) (d : Nat) : Hex t n → Digit c d → Hex (t ++ [c]) (n * 16 + d)

/-- a group: digits for a number of two bytes -/
def Group (t : Bytes) (a b : UInt8) : Prop := t ≠ [] ∧ Hex t (a.toNat * 256 + b.toNat)

/-- groups with colons between them, and their bytes -/
inductive Groups : Bytes → Bytes → Prop where
  | one (t : Bytes) (a b : UInt8) : Group t a b → Groups t [a, b]
  | more (t : Bytes) (a b : UInt8) (t' bs : Bytes) : Group t a b → Groups t' bs → Groups (t ++ ascii ":" ++ t') (a :: b :: bs)

/-- groups with colons between them, the last two of which may be written as an IPv4 address -/
inductive Tail : Bytes → Bytes → Prop where
  | one (t : Bytes) (a b : UInt8) : Group t a b → Tail t [a, b]
  | quad (a b c d : UInt8) : Tail (dotted (a, b, c, d)) [a, b, c, d]
  | more (t : Bytes) (a b : UInt8) (t' bs : Bytes) : Group t a b → Tail t' bs → Tail (t ++ ascii ":" ++ t') (a :: b :: bs)

/-- the texts of an address of sixteen bytes: all groups, or two colons in place of one group of zeros or more -/
inductive Six : Bytes → IP → Prop where
  | full (t : Bytes) (bs : IP) : Tail t bs → bs.length = 16 → Six t bs
  | gap (t t' b b' : Bytes) (z : Nat) : (Groups t b ∨ t = [] ∧ b = []) → (Tail t' b' ∨ t' = [] ∧ b' = []) → 0 < z → b.length + z + b'.length = 16 →
      Six (t ++ ascii "::" ++ t') (b ++ List.replicate z 0 ++ b')

/-- the text names the address -/
inductive Names : Bytes → IP → Prop where
  | four (a b c d : UInt8) : Names (dotted (a, b, c, d)) [0, 0, 0, 0, 0, 0, 0, 0, 0, 0, 255, 255, a, b, c, d]
  | six (t : Bytes) (ip : IP) : Six t ip → Names t ip

/-- a number in hexadecimal notation, in lower case and without zeros in front -/
def hexText (n : Nat) : Bytes := (Nat.toDigits 16 n).map fun c => UInt8.ofNat c.toNat

/-- the groups of an address, or of a part of it, with colons between them -/
inductive Written : Bytes → Bytes → Prop where
  | none : Written [] []
  | one (a b : UInt8) : Written [a, b] (hexText (a.toNat * 256 + b.toNat))
  | more (a b : UInt8) (bs t : Bytes) : bs ≠ [] → Written bs t → Written (a :: b :: bs) (hexText (a.toNat * 256 + b.toNat) ++ ascii ":" ++ t)

/-- `k` groups of zeros behind `p` -/
def ZerosAt (ip p : Bytes) (k : Nat) : Prop := p.length % 2 = 0 ∧ ∃ q, ip = p ++ List.replicate (2 * k) 0 ++ q

/-- the text of an address of sixteen bytes that is not an IPv4 address: two colons stand for the longest sequence of groups of zeros, for the first one if several are
the longest, and for none if no two such groups follow each other -/
inductive Shown (ip : IP) : Bytes → Prop where
  | plain (t : Bytes) : (∀ p, ¬ ZerosAt ip p 2) → Written ip t → Shown ip t
  | cut (p q t t' : Bytes) (k : Nat) : ip = p ++ List.replicate (2 * k) 0 ++ q → p.length % 2 = 0 → 2 ≤ k →
      (∀ p' k', ZerosAt ip p' k' → k' ≤ k ∧ (k' = k → p.length ≤ p'.length)) → Written p t → Written q t' → Shown ip (t ++ ascii "::" ++ t')

end Verif.NetIP.Spec
