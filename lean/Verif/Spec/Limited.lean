import Verif.Spec.Peers
import Verif.Spec.RateLive
import Verif.Model.Peers
/-
What is meant by the bytes sent and received by a client, for C102.
-/
set_option autoImplicit false

namespace Verif.LimitedSpec
open Verif.Peers Verif.PeersSpec

/-- the bytes of all messages with blocks that were sent to anybody -/
def blockBytes (conns : List Conn) : Nat := (conns.map fun c => ((c.out.filter isBlock).map List.length).sum).sum

/-- the bytes of everything that was sent to anybody -/
def sentBytes (conns : List Conn) : Nat := (conns.map fun c => (c.out.map List.length).sum).sum

/-- the bytes that were received from anybody after the handshake -/
def gotBytes (conns : List Conn) : Nat := (conns.map fun c => (c.got.map List.length).sum).sum

end Verif.LimitedSpec
