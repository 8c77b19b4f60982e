import Verif.Model.Go
/-
Specification of bit strings: the bits of a byte string, most significant bit of the first byte first.
-/
set_option autoImplicit false

namespace Verif.Bits

/-- bit `i` of a byte string, counting from the most significant bit of the first byte; `false` behind
the end -/
def bit (bs : Bytes) (i : Nat) : Bool :=
  match bs[i / 8]? with
  | some b => b.toNat.testBit (7 - i % 8)
  | none => false

/-- how many of the numbers `0, …, n-1` satisfy `f` -/
def count (f : Nat → Bool) : Nat → Nat
  | 0 => 0
  | n + 1 => count f n + (if f n then 1 else 0)

/-- operations on an abstract bit map -/
inductive Op where
  | set (i : Nat) (v : Bool)
  | fill
  | setNbits (n : Nat)

/-- effect of an operation on the map index → bit: only `set` and `fill` change bits -/
def Op.apply (f : Nat → Bool) : Op → (Nat → Bool)
  | .set i v => fun j => if j = i then v else f j
  | .fill => fun _ => true
  | .setNbits _ => f

end Verif.Bits
