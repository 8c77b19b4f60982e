import Verif.Spec.Doc
/-
The work for a document, read off the document: a numeral of `d` digits that is put together digit by digit, with a copy of everything so far each time, takes
1 + 2 + ... + d bytes of copying.
-/
set_option autoImplicit false

namespace Verif.Work.Spec
open Verif.Bencode.Spec Verif.Size

/-- 1 + 2 + ... + d -/
def tri : Nat → Nat
  | 0 => 0
  | d + 1 => tri d + (d + 1)

/-- looking at `d` digits and the byte behind them, and copying -/
def numeral (d : Nat) : Nat := d + 1 + tri d

mutual
/-- `b` is a document in which no numeral has more than `m` digits, and reading it takes `n` -/
inductive Costs (m : Nat) : Bytes → Nat → Prop
  | str (ds s : Bytes) : Digits ds → ds.length ≤ m → decVal ds = s.length → Costs m (ds ++ ascii ":" ++ s) (1 + numeral ds.length + s.length)
  | int (sign ds : Bytes) : Digits ds → ds.length ≤ m → (ds.head? = some 48 → ds = [48]) → (sign = [] ∨ sign = ascii "-") →
      Costs m (ascii "i" ++ sign ++ ds ++ ascii "e") (4 + numeral ds.length)
  | list (b : Bytes) (n : Nat) : CostsSeq m b n → Costs m (ascii "l" ++ b ++ ascii "e") (2 + n)
  | dict (b : Bytes) (n : Nat) : CostsEntries m b n → Costs m (ascii "d" ++ b ++ ascii "e") (2 + n)
/-- documents one behind the other -/
inductive CostsSeq (m : Nat) : Bytes → Nat → Prop
  | nil : CostsSeq m [] 0
  | cons (b bs : Bytes) (n k : Nat) : Costs m b n → CostsSeq m bs k → CostsSeq m (b ++ bs) (1 + n + k)
/-- keys and documents one behind the other; a key is copied and hashed -/
inductive CostsEntries (m : Nat) : Bytes → Nat → Prop
  | nil : CostsEntries m [] 0
  | cons (ds s b bs : Bytes) (n k : Nat) : Digits ds → ds.length ≤ m → decVal ds = s.length → Costs m b n → CostsEntries m bs k →
      CostsEntries m (ds ++ ascii ":" ++ s ++ b ++ bs) (1 + numeral ds.length + s.length + n + s.length + k)
end

end Verif.Work.Spec
