import Verif.Model.P2P
import Verif.Model.Peer
/-
Model of /repo/src/swarm/handshake.go and of FromBootstrap and FromIncoming in /repo/src/swarm/peerhandler.go.
-/
set_option autoImplicit false

namespace Verif.Handshake
open Verif.P2P Verif.Bf Verif.Peer

/-- handshake.go:3-5 -/
def HandshakeLen : Nat := 68
/-- handshake.go:4 -/
def HandshakePstrLen : UInt8 := 19
/-- handshake.go:5 -/
def HandshakePstr : Bytes := ascii "BitTorrent protocol"

/-- `copy(dst[off:], src)` for an offset inside of `dst`: as many bytes as fit -/
def copyAt (dst : Bytes) (off : Nat) (src : Bytes) : Bytes :=
  dst.take off ++ src.take (dst.length - off) ++ dst.drop (off + (src.take (dst.length - off)).length)

/-- handshake.go:9-16 `MakeHandshake` -/
def MakeHandshake (infohash id : Bytes) : Bytes :=
  copyAt (copyAt (copyAt ((List.replicate HandshakeLen 0).set 0 HandshakePstrLen) 1 HandshakePstr) 28 infohash) 48 id

/-- handshake.go:34-36 `Id`; also used at peerhandler.go:112 -/
def Id (hs : Bytes) : Res Bytes := slice hs 48 68

/-- handshake.go:38-57 `ValidHandshake`, with the accessors of lines 18-32 -/
def ValidHandshake (hs infohash : Bytes) : Bool :=
  if hs.length ≠ HandshakeLen then false
  else if hs[0]? ≠ some HandshakePstrLen then false
  else if (hs.take 20).drop 1 ≠ HandshakePstr then false
  else if (hs.take 48).drop 28 ≠ infohash then false
  else true

/-- what happens on an incoming connection: the remote TCP address (if it is one), whether the deadline can be set, the bytes
returned by the one call of `Read` (`none`: an error or a timeout), and whether the two writes succeed -/
structure Incoming where
  tcp : Option (IP × UInt16)
  deadline : Bool
  read : Option Bytes
  write1 : Bool
  write2 : Bool

/-- peerhandler.go:76, 85: the buffer after `conn.Read(buf)`: 68 zero bytes, overwritten from the beginning -/
def readBuf (d : Bytes) : Bytes := copyAt (List.replicate HandshakeLen 0) 0 d

/-- peerhandler.go:68-115 `FromIncoming`: what has been written to the connection, and the new peer (`NewPeerHandler` is not
part of this model).  `v6` is the text form of IPv6 addresses. -/
def FromIncoming (v6 : IP → Bytes) (c : Incoming) (infohash ownId : Bytes) (b : Bitfield) : List Bytes × Res Info :=
  match c.tcp with
  | none => ([], .err .other)
  | some (ip, port) =>
    if c.deadline = false then ([], .err .os)
    else match c.read with
      | none => ([], .err .os)
      | some d =>
        if ValidHandshake (readBuf d) infohash = false then ([], .err .other)
        else if c.write1 = false then ([], .err .os)
        else match (NewMsgBitfield b).Encode with
          | .ok m =>
            if c.write2 = false then ([MakeHandshake infohash ownId], .err .os)
            else ([MakeHandshake infohash ownId, m], do
              let id ← Id (readBuf d)
              .ok (MakePeer v6 id ip port))
          | .err e => ([MakeHandshake infohash ownId], .err e)
          | .panic => ([MakeHandshake infohash ownId], .panic)
          | .timeout => ([MakeHandshake infohash ownId], .timeout)

/-- peerhandler.go:50-64 `FromBootstrap`: what has been written, and the peer.  Nothing is read from the connection. -/
def FromBootstrap (dialOk writeOk : Bool) (pInfo : Info) (infohash ownId : Bytes) : List Bytes × Res Info :=
  if dialOk = false then ([], .err .os)
  else if writeOk = false then ([], .err .os)
  else ([MakeHandshake infohash ownId], .ok pInfo)

end Verif.Handshake
