import Verif.Spec.Session
import Verif.Spec.Handshake
/-
Specification of what a client sends on a connection, and of what a peer that keeps to the protocol sends.
-/
set_option autoImplicit false

namespace Verif.PeersSpec
open Verif.Wire Verif.Layout Verif.SessionSpec Verif.HandshakeSpec

/-- the received buffers contain the messages `ws` of a polite peer (`Polite`), in order, and end on message boundaries; a handshake is in a
buffer of its own -/
inductive Delivered (content : Bytes) (pl n : Nat) : List Bytes → List Msg → Prop
  | nothing : Delivered content pl n [] []
  | messages (bufs : List Bytes) (ws new : List Msg) (h : Delivered content pl n bufs ws) (hp : ∀ w ∈ new, Polite content pl n w)
      (hl : (stream new).length < 2 ^ 32) : Delivered content pl n (bufs ++ [stream new]) (ws ++ new)
  | handshake (bufs : List Bytes) (ws : List Msg) (hs ih id : Bytes) (h : Delivered content pl n bufs ws) (hh : IsHandshake hs ih id) :
      Delivered content pl n (bufs ++ [hs]) ws

/-- what is sent first: our handshake, our bitfield on connections made by the peer, and the unchoke message unless writing it failed -/
def Greeting (infohash ownId bits : Bytes) (start : List Bytes) : Prop :=
  ∃ hs b u, IsHandshake hs infohash ownId ∧ (b = [] ∨ b = [wire (.bitfield bits)]) ∧ (u = [] ∨ u = [wire .unchoke]) ∧ start = hs :: (b ++ u)

/-- the bytes are zero, or at this offset of a piece that is there -/
def Clean (content : Bytes) (pl n : Nat) (have_ : Nat → Bool) (off : Nat) (blk : Bytes) : Prop :=
  ∀ (j : Nat) (v : UInt8), blk[j]? = some v → v = 0 ∨ ∃ i, i < n ∧ have_ i = true ∧ (pieceOf content pl i)[off + j]? = some v

/-- what may be sent at all: our handshake, our bitfield, unchoke, keep-alive, and pieces that are there; their blocks lie within a piece and
contain nothing but zero bytes and bytes of pieces that are there -/
def Allowed (content : Bytes) (pl n : Nat) (have_ : Nat → Bool) (infohash ownId bits x : Bytes) : Prop :=
  IsHandshake x infohash ownId ∨ x = wire (.bitfield bits) ∨ x = wire .unchoke ∨ x = wire .keepAlive ∨
  ∃ i b blk, x = wire (.piece i b blk) ∧ i.toNat < n ∧ have_ i.toNat = true ∧ b.toNat + blk.length ≤ pl ∧ Clean content pl n have_ b.toNat blk

/-- the form of a message with a block: the byte after the length is 7 -/
def isBlock (x : Bytes) : Bool := x[4]? = some 7

/-- a block that was sent, and the length that was asked for -/
structure Answer where
  index : UInt32
  begin : UInt32
  length : UInt32
  block : Bytes

/-- what was asked -/
def Answer.asked (a : Answer) : Msg := .request a.index a.begin a.length

/-- what was sent -/
def Answer.sent (a : Answer) : Bytes := wire (.piece a.index a.begin a.block)

/-- how what one side has written arrives at the other side if the network does not cut messages: every buffer consists of consecutive
messages, from the first message on or, if the handshake has been read before, from the second on; a handshake is in a buffer of its own -/
def Carried (sent got : List Bytes) : Prop :=
  ∃ groups : List (List Bytes), got = groups.map List.flatten ∧ (groups.flatten <+: sent ∨ groups.flatten <+: sent.drop 1) ∧
    (∀ g ∈ groups, g.flatten.length < 2 ^ 32) ∧ ∀ g ∈ groups, ∀ x ∈ g, (∃ ih id, IsHandshake x ih id) → g = [x]

/-- the distinct texts of the peers `l` (with the messages received from them) that have announced piece `i` in a bitfield -/
def Holders (l : List (Bytes × List Msg)) (i : Nat) (keys : List Bytes) : Prop :=
  keys.Nodup ∧ ∀ k, k ∈ keys ↔ ∃ ws, (k, ws) ∈ l ∧ InBitfield ws i

end Verif.PeersSpec
