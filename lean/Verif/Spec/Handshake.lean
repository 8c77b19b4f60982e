import Verif.Model.Go
/-
Specification of the handshake (BEP 3): the number 19, the name of the protocol, eight reserved bytes, the info-hash, the peer id.
-/
set_option autoImplicit false

namespace Verif.HandshakeSpec

/-- `hs` is a handshake with these parts -/
def IsHandshake (hs infohash id : Bytes) : Prop :=
  infohash.length = 20 ∧ id.length = 20 ∧
  ∃ reserved : Bytes, reserved.length = 8 ∧ hs = [19] ++ ascii "BitTorrent protocol" ++ reserved ++ infohash ++ id

end Verif.HandshakeSpec
