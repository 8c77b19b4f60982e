import Verif.Spec.Wire
import Verif.Spec.Bits
/-
Specification for C96: how a message arrives in buffers of limited size.
-/
set_option autoImplicit false

namespace Verif.LargeSpec

/-- the bytes arrive in buffers of at most `size` bytes, one after the other -/
def Arrives (size : Nat) (data : Bytes) (bufs : List Bytes) : Prop := bufs.flatten = data ∧ ∀ b ∈ bufs, b.length ≤ size

/-- the bitfield of a peer of a torrent with `n` pieces: as many bytes as needed, nothing set beyond the pieces -/
def OfPieces (n : Nat) (p : Bytes) (held : Nat → Prop) : Prop :=
  p.length = (n + 7) / 8 ∧ ∀ i, Bits.bit p i = true ↔ held i ∧ i < n

end Verif.LargeSpec
