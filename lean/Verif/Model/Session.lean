import Verif.Model.Handshake
import Verif.Model.MsgHandler
/-
Model of the life of a peer connection in /repo/src/swarm/peerhandler.go as a sequence of writes: NewPeerHandler, Choke, the first
message of Loop and the handling of the received buffers; for incoming connections together with FromIncoming.

The keep-alive messages of pingLoop (one every 60 seconds, written between two of the writes below) and the requests of requestLoop are not part
of this model; for these see Model/PeerLoop.lean and `createReqMessages`.
-/
set_option autoImplicit false

namespace Verif.Session
open Verif.P2P Verif.Bf Verif.Files Verif.FileIO Verif.PieceTracker Verif.Peer Verif.Handshake Verif.MsgHandler

/-- state.go:3-8 `State` -/
structure PeerState where
  chokingUs : Bool
  weChoking : Bool
  interestedUs : Bool
  weInterested : Bool
  deriving DecidableEq, Repr

/-- state.go:10-17 `MakeState` -/
def MakeState : PeerState := ⟨true, true, false, false⟩

/-- peerhandler.go:33-43 `PeerHandler`, without the connection, the wait group and the channel -/
structure Handler where
  info : Info
  state : PeerState
  bf : Bitfield
  buf : Bytes

/-- peerhandler.go:117-128 `NewPeerHandler`.  `peerState` is not mentioned there and has its zero value; `make` panics for a negative
length. -/
def NewPeerHandler (pInfo : Info) (ti : TorInfo) : Res Handler :=
  if ti.pieceLen < 0 then .panic
  else do
    let b ← NewBitfield ti.numPieces
    .ok ⟨pInfo, ⟨false, false, false, false⟩, b, List.replicate ti.pieceLen.toNat 0⟩

/-- peerhandler.go:133-137 `Choke`: what is written, and the result -/
def Choke (writeOk : Bool) : List Bytes × Res Unit :=
  match Msg.unchoke.Encode with
  | .ok m => if writeOk then ([m], .ok ()) else ([], .err .os)
  | .err e => ([], .err e)
  | .panic => ([], .panic)
  | .timeout => ([], .timeout)

/-- peerhandler.go:150-155: the first message of `Loop`; an error is only logged -/
def firstMessage (writeOk : Bool) : Res (List Bytes) := do
  let m ← Msg.unchoke.Encode
  .ok (if writeOk then [m] else [])

/-- `Loop` as far as recvLoop is concerned (peerhandler.go:142-155, 188-227): the unchoke message, then the received buffers are handled
one after the other until there is an error.  The handler's address is `ptr`; the results are what was written, the state of the
swarm's tracker and of the handler, and the outcome.  The peer's flags are never touched. -/
def loop (fuel : Nat) (s : MsgHandler.Swarm) (ptr : Nat) (ph : Handler) (unchokeOk : Bool) (wok : Nat → Bool) (ppt : Tracker) (bufs : List Bytes) :
    List Bytes × Tracker × Handler × Res Unit :=
  match firstMessage unchokeOk with
  | .ok first =>
    match recvAll fuel s ⟨ptr, ph.info.str⟩ wok bufs ⟨ppt, ph.bf, ph.buf, []⟩ with
    | (st, r) => (first ++ st.out, st.ppt, { ph with bf := st.peerBf, buf := st.buf }, r)
  | .err e => ([], ppt, ph, .err e)
  | .panic => ([], ppt, ph, .panic)
  | .timeout => ([], ppt, ph, .timeout)

/-- an incoming connection (swarm.go:156-164, peerhandler.go:68-115): `FromIncoming`, then `Loop` -/
def incoming (fuel : Nat) (v6 : IP → Bytes) (c : Incoming) (infohash ownId : Bytes) (s : MsgHandler.Swarm) (ptr : Nat) (unchokeOk : Bool) (wok : Nat → Bool)
    (ppt : Tracker) (bufs : List Bytes) : List Bytes × Res Unit :=
  match FromIncoming v6 c infohash ownId s.bf with
  | (out, .ok p) =>
    match NewPeerHandler p s.tor with
    | .ok ph =>
      match loop fuel s ptr ph unchokeOk wok ppt bufs with
      | (out', _, _, r) => (out ++ out', r)
    | .err e => (out, .err e)
    | .panic => (out, .panic)
    | .timeout => (out, .timeout)
  | (out, .err e) => (out, .err e)
  | (out, .panic) => (out, .panic)
  | (out, .timeout) => (out, .timeout)

/-- a connection opened by us (swarm.go:127-134, peerhandler.go:50-64): `FromBootstrap`, then `Loop` -/
def outgoing (fuel : Nat) (dialOk writeOk : Bool) (p : Info) (infohash ownId : Bytes) (s : MsgHandler.Swarm) (ptr : Nat) (unchokeOk : Bool) (wok : Nat → Bool)
    (ppt : Tracker) (bufs : List Bytes) : List Bytes × Res Unit :=
  match FromBootstrap dialOk writeOk p infohash ownId with
  | (out, .ok p) =>
    match NewPeerHandler p s.tor with
    | .ok ph =>
      match loop fuel s ptr ph unchokeOk wok ppt bufs with
      | (out', _, _, r) => (out ++ out', r)
    | .err e => (out, .err e)
    | .panic => (out, .panic)
    | .timeout => (out, .timeout)
  | (out, .err e) => (out, .err e)
  | (out, .panic) => (out, .panic)
  | (out, .timeout) => (out, .timeout)

end Verif.Session
