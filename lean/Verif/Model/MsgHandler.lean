import Verif.Model.P2P
import Verif.Model.FileIO
import Verif.Model.PieceTracker
/-
Model of /repo/src/swarm/msghandler.go, of the data flow of recvLoop and of createReqMessages in /repo/src/swarm/peerhandler.go.
-/
set_option autoImplicit false

namespace Verif.MsgHandler
open Verif.P2P Verif.Bf Verif.Files Verif.FileIO Verif.PieceTracker

/-- the parts of `Swarm` (swarm.go:28-44) used here.  They do not change while a message is handled. -/
structure Swarm where
  tor : TorInfo
  bf : Bitfield
  fio : FileIO
  fs : FS.State

/-- what the handlers change: the availability tracker, and of `PeerHandler` (peerhandler.go:33-43) the peer's bitfield and the
buffer for file operations; `out` is what has been written to the connection -/
structure St where
  ppt : Tracker
  peerBf : Bitfield
  buf : Bytes
  out : List Bytes

/-- msghandler.go:35-56 `handleBitfield`; the bitfield belongs to the message -/
def handleBitfield (s : Swarm) (me : PH) (b : Bitfield) (st : St) : St × Res Unit :=
  if b.nbytes ≠ s.bf.nbytes then (st, .err .other)
  else match b.SetNbits s.tor.numPieces with
    | .ok b' =>
      match RegisterBF st.ppt me b' with
      | .ok t => ({ st with peerBf := b', ppt := t }, .ok ())
      | .err e => ({ st with peerBf := b' }, .err e)
      | .panic => ({ st with peerBf := b' }, .panic)
      | .timeout => ({ st with peerBf := b' }, .timeout)
    | .err e => (st, .err e)
    | .panic => (st, .panic)
    | .timeout => (st, .timeout)

/-- msghandler.go:62: the condition -/
def mayServe (s : Swarm) (idx : Nat) : Res Bool := if s.bf.Complete then .ok true else s.bf.Get idx

/-- msghandler.go:67-69: the answer; `ph.buf` has no spare capacity (peerhandler.go:125), the sum is in `uint32` -/
def answer (buf : Bytes) (index begin reqlen : UInt32) : Res Bytes := do
  let subdata ← slice buf begin.toNat (begin + reqlen).toNat
  (NewMsgPiece index begin subdata).Encode

/-- msghandler.go:58-76 `handleRequest`; `writeOk` tells whether `RLIO.Write` succeeds.  What is in the buffer after an error
is not modelled (nothing is handled after an error). -/
def handleRequest (s : Swarm) (index begin reqlen : UInt32) (writeOk : Bool) (st : St) : St × Res Unit :=
  match mayServe s index.toNat with
  | .ok true =>
    match ReadPiece s.fs s.fio index.toNat st.buf with
    | .ok (_, buf) =>
      match answer buf index begin reqlen with
      | .ok m => if writeOk then ({ st with buf := buf, out := st.out ++ [m] }, .ok ()) else ({ st with buf := buf }, .err .os)
      | .err e => ({ st with buf := buf }, .err e)
      | .panic => ({ st with buf := buf }, .panic)
      | .timeout => ({ st with buf := buf }, .timeout)
    | .err e => (st, .err e)
    | .panic => (st, .panic)
    | .timeout => (st, .timeout)
  | .ok false => (st, .ok ())
  | .err e => (st, .err e)
  | .panic => (st, .panic)
  | .timeout => (st, .timeout)

/-- msghandler.go:18-25: one message.  `wok n` tells whether the `n`-th write succeeds. -/
def handleOne (s : Swarm) (me : PH) (wok : Nat → Bool) (m : Msg) (st : St) : St × Res Unit :=
  match m with
  | .request index begin reqlen => handleRequest s index begin reqlen (wok st.out.length) st
  | .bitfield _ b => handleBitfield s me b st
  | _ => (st, .ok ())

/-- msghandler.go:17-32: the loop -/
def handleAll (s : Swarm) (me : PH) (wok : Nat → Bool) : List Msg → St → St × Res Unit
  | [], st => (st, .ok ())
  | m :: ms, st =>
    match handleOne s me wok m st with
    | (st', .ok _) => handleAll s me wok ms st'
    | (st', r) => (st', r)

/-- msghandler.go:11-33 `handleMessage`; decoding is stopped after `fuel` iterations -/
def handleMessage (fuel : Nat) (s : Swarm) (me : PH) (wok : Nat → Bool) (buf : Bytes) (st : St) : St × Res Unit :=
  match DecodeAll fuel buf with
  | .ok dar => handleAll s me wok dar.msgs st
  | .err e => (st, .err e)
  | .panic => (st, .panic)
  | .timeout => (st, .timeout)

/-- peerhandler.go:208-227, the data flow: the buffers delivered by the read loop are handled one after the other until an
error -/
def recvAll (fuel : Nat) (s : Swarm) (me : PH) (wok : Nat → Bool) : List Bytes → St → St × Res Unit
  | [], st => (st, .ok ())
  | b :: bs, st =>
    match handleMessage fuel s me wok b st with
    | (st', .ok _) => recvAll fuel s me wok bs st'
    | (st', r) => (st', r)

/-- peerhandler.go:276-279: the loop of `createReqMessages`; `float64` represents all values of `uint32` exactly -/
def reqLoop (index length : UInt32) : Nat → UInt32 → List Msg → Res (List Msg)
  | 0, _, _ => .timeout
  | fuel + 1, offset, msgs =>
    if offset < length then reqLoop index length fuel offset (msgs ++ [NewMsgRequest index offset (min 16384 (length - offset))])
    else .ok msgs

/-- peerhandler.go:269-272 -/
def reqLength (ti : TorInfo) (index : UInt32) : UInt32 :=
  if (index.toNat : Int) = (ti.numPieces : Int) - 1 then UInt32.ofInt ti.lastPieceLen else UInt32.ofInt ti.pieceLen

/-- peerhandler.go:265-282 `createReqMessages`, stopped after `fuel` iterations -/
def createReqMessages (fuel : Nat) (ti : TorInfo) (index : UInt32) : Res (List Msg) := reqLoop index (reqLength ti index) fuel 0 []

end Verif.MsgHandler
