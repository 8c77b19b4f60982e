import Verif.Model.Body
/-
How a body is sent (RFC 7230), for C126.
-/
set_option autoImplicit false

namespace Verif.BodySpec
open Verif.Body

/-- a hexadecimal digit and its value -/
def IsHex (c : UInt8) (d : Nat) : Prop := (ascii "0123456789abcdef")[d]? = some c ∨ (ascii "0123456789ABCDEF")[d]? = some c

/-- hexadecimal digits and their value -/
inductive Hex : Bytes → Nat → Prop
  | nil : Hex [] 0
  | snoc (ds : Bytes) (n : Nat) (c : UInt8) (d : Nat) : Hex ds n → IsHex c d → Hex (ds ++ [c]) (16 * n + d)

/-- the line in front of a chunk of `n` bytes: at most 16 digits, and blanks or an extension.  RFC 7230 asks for at least one digit and for a carriage return; Go does not. -/
def SizeLine (n : Nat) (l : Bytes) : Prop :=
  ∃ ds tail, l = ds ++ tail ++ [10] ∧ Hex ds n ∧ ds.length ≤ 16 ∧ 10 ∉ tail ∧ ((∀ c ∈ tail, c = 32 ∨ c = 9 ∨ c = 13) ∨ tail.head? = some 59) ∧ l.length < 4096

/-- what follows the last chunk: a blank line, or header fields and a blank line -/
def Trailer (mime : Bytes → Bool) (t : Bytes) : Prop :=
  t = [13, 10] ∨
  (∃ u, t = u ++ [13, 10, 13, 10]) ∧ (∀ u v, t = u ++ [13, 10, 13, 10] ++ v → v = []) ∧ t.take 2 ≠ [13, 10] ∧ t.length ≤ 4096 ∧ mime t = true

/-- `Chunked mime b w`: the bytes `w` are the body `b` in chunks -/
inductive Chunked (mime : Bytes → Bool) : Bytes → Bytes → Prop
  | last (l t : Bytes) : SizeLine 0 l → Trailer mime t → Chunked mime [] (l ++ t)
  | more (c l b w : Bytes) : c ≠ [] → SizeLine c.length l → Chunked mime b w → Chunked mime (c ++ b) (l ++ c ++ [13, 10] ++ w)

/-- the bytes `w` are the body `b` -/
def Sent (mime : Bytes → Bool) : Framing → Bytes → Bytes → Prop
  | .length n, b, w => b.length = n ∧ w = b
  | .chunked, b, w => Chunked mime b w
  | .close, b, w => w = b

end Verif.BodySpec
