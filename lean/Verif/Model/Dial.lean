import Verif.Model.Handshake
/-
Model of the address that /repo/src/swarm/peerhandler.go:51 passes to `net.Dial`: Go's `net.SplitHostPort` (ipsock.go), with which
`net.Dial("tcp", addr)` begins; if it fails, so does `Dial`, before anything is sent.
-/
set_option autoImplicit false

namespace Verif.Dial
open Verif.Peer

/-- the part before the last colon and the part behind it; `none` if there is no colon -/
def lastColon : Bytes → Option (Bytes × Bytes)
  | [] => none
  | c :: cs =>
    match lastColon cs with
    | some (a, b) => some (c :: a, b)
    | none => if c = 58 then some ([], cs) else none

/-- ipsock.go `SplitHostPort`, addresses that begin with a bracket: the host is what is in the brackets -/
def splitBracket (hostport port : Bytes) : Option (Bytes × Bytes) :=
  if (93 : UInt8) ∉ hostport then none
  else if (hostport.dropWhile (· ≠ 93)).drop 1 = 58 :: port then
    if (91 : UInt8) ∈ hostport.drop 1 ∨ (93 : UInt8) ∈ port then none
    else some ((hostport.takeWhile (· ≠ 93)).drop 1, port)
  else none

/-- ipsock.go `SplitHostPort`: host and port; `none` is an error -/
def SplitHostPort (hostport : Bytes) : Option (Bytes × Bytes) :=
  match lastColon hostport with
  | none => none
  | some (host, port) =>
    if hostport.head? = some 91 then splitBracket hostport port
    else if (58 : UInt8) ∈ host then none
    else if (91 : UInt8) ∈ hostport ∨ (93 : UInt8) ∈ hostport then none
    else some (host, port)

/-- peerhandler.go:50-64 `FromBootstrap` with `net.Dial`: `reach` says whether a TCP connection to this host and port can be made.
(Host names are resolved, which `reach` includes.) -/
def FromBootstrap (reach : Bytes → Bytes → Bool) (writeOk : Bool) (pInfo : Info) (infohash ownId : Bytes) : List Bytes × Res Info :=
  match SplitHostPort pInfo.addr with
  | none => Handshake.FromBootstrap false writeOk pInfo infohash ownId
  | some (host, port) => Handshake.FromBootstrap (reach host port) writeOk pInfo infohash ownId

end Verif.Dial
