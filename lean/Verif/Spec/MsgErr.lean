import Verif.Spec.Wire
import Verif.Model.Bencode
/-
What can be wrong with bytes that should begin with a message, and what is to be said about it.
-/
set_option autoImplicit false

namespace Verif.MsgErrSpec
open Verif.Wire Verif.Bencode

/-- `Fault data t n`: the text `t` is said about `data`, and `n` bytes are skipped.  The faults exclude each other; a length that is close to 2^32 is none of them (C13). -/
inductive Fault (data : Bytes) : Bytes → Nat → Prop
  /-- no length -/
  | short (h : data.length < 4) : Fault data (ascii "message length must be at least 4, got " ++ natDec data.length) data.length
  /-- a length and nothing behind it -/
  | untyped (h : data.length = 4) (h0 : prefixLen data ≠ 0) : Fault data (ascii "non-keep-alive message length must be at least 5, got " ++ natDec data.length) data.length
  /-- a message without payload of another length -/
  | fixed (t : UInt8) (ht : data[4]? = some t) (h : t.toNat ≤ 3) (h0 : prefixLen data ≠ 0) (h1 : prefixLen data ≠ 1) :
      Fault data (ascii "invalid message, length for id [0-3] must be 1, got " ++ natDec (prefixLen data)) data.length
  /-- a message that is not all there -/
  | incomplete (t : UInt8) (ht : data[4]? = some t) (h : 3 < t.toNat) (hs : prefixLen data < 2 ^ 32 - 4) (hl : data.length < 4 + prefixLen data) :
      Fault data (ascii "length specified as " ++ natDec (prefixLen data) ++ ascii ", payload length is " ++ natDec data.length) data.length
  /-- a have message of another length -/
  | have (ht : data[4]? = some 4) (h0 : prefixLen data ≠ 0) (h5 : prefixLen data ≠ 5) (hs : prefixLen data < 2 ^ 32 - 4) (hl : 4 + prefixLen data ≤ data.length) :
      Fault data (ascii "have message must have 4 byte payload, got " ++ natDec (prefixLen data - 1)) 9
  /-- a bitfield without bits -/
  | noBits (ht : data[4]? = some 5) (h1 : prefixLen data = 1) : Fault data (ascii "bytes5 must have length greater than 5 bytes") 0
  /-- a request of another length -/
  | request (ht : data[4]? = some 6) (h0 : prefixLen data ≠ 0) (h13 : prefixLen data ≠ 13) (hs : prefixLen data < 2 ^ 32 - 4) (hl : 4 + prefixLen data ≤ data.length) :
      Fault data (ascii "request message must have 12 byte payload, got " ++ natDec (prefixLen data - 1)) 17
  /-- an id that is not in use -/
  | unknown (t : UInt8) (ht : data[4]? = some t) (h : 7 < t.toNat) (h0 : prefixLen data ≠ 0) (hs : prefixLen data < 2 ^ 32 - 4) (hl : 4 + prefixLen data ≤ data.length) :
      Fault data (ascii "unknown message type " ++ natDec t.toNat) data.length

/-- `Offends num pl ours werr m t`: a client of a torrent with `num` pieces of length `pl` that has the bits `ours` gives up the connection over the message `m`, with the text `t`;
`werr` is the text of the error when an answer is written now, if there is one. -/
inductive Offends (num pl : Nat) (ours : Nat → Bool) (werr : Option Bytes) : Wire.Msg → Bytes → Prop
  /-- a bitfield with another number of bytes -/
  | bitfield (p : Bytes) (h : p.length ≠ (num + 7) / 8) : Offends num pl ours werr (.bitfield p) (ascii "invalid bitfield")
  /-- a request for a piece that does not exist, and the client has all the pieces, or has the bit set -/
  | beyond (i b l : UInt32) (hi : num ≤ i.toNat) (h : (∀ j, j < num → ours j = true) ∨ (i.toNat < (num + 7) / 8 * 8 ∧ ours i.toNat = true)) :
      Offends num pl ours werr (.request i b l) (ascii "index out of bounds")
  /-- an answer that cannot be sent -/
  | unsent (i b l : UInt32) (t : Bytes) (hi : i.toNat < num) (ho : ours i.toNat = true) (hl : b.toNat + l.toNat ≤ pl) (hw : werr = some t) :
      Offends num pl ours werr (.request i b l) t

end Verif.MsgErrSpec
