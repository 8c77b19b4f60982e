import Verif.Spec.Wire
import Verif.Spec.Layout
import Verif.Spec.Bits
/-
Specification of seeding: what a peer that asks for blocks of a torrent should be sent.
-/
set_option autoImplicit false

namespace Verif.SessionSpec
open Verif.Wire Verif.Layout

/-- the answer to a message: requests for pieces that are there are answered with that part of the torrent, nothing else is
answered -/
def reply (content : Bytes) (pl : Nat) (have_ : Nat → Bool) : Msg → Option Msg
  | .request i b l => if have_ i.toNat then some (.piece i b (range content (i.toNat * pl + b.toNat) l.toNat)) else none
  | _ => none

/-- the answers to a sequence of messages, in order -/
def replies (content : Bytes) (pl : Nat) (have_ : Nat → Bool) (ws : List Msg) : List Msg := ws.filterMap (reply content pl have_)

/-- messages of a peer that keeps to the protocol and wants to download: requests stay inside a piece of the torrent, bitfields have
one bit for each of the `n` pieces (rounded up to bytes), and it sends no pieces -/
def Polite (content : Bytes) (pl n : Nat) : Msg → Prop
  | .request i b l => i.toNat < n ∧ b.toNat + l.toNat ≤ (pieceOf content pl i.toNat).length
  | .bitfield bits => bits ≠ [] ∧ bits.length = (n + 7) / 8
  | .piece _ _ _ => False
  | _ => True

/-- the peer's bitfields contain piece `i` -/
def InBitfield (ws : List Msg) (i : Nat) : Prop := ∃ bits, Msg.bitfield bits ∈ ws ∧ Bits.bit bits i = true

/-- the peer has told us that it has piece `i` -/
def Announced (ws : List Msg) (i : Nat) : Prop := InBitfield ws i ∨ ∃ j, Msg.have j ∈ ws ∧ j.toNat = i

end Verif.SessionSpec
