import Verif.Model.Session
/-
Model of all peer connections of a client at once: /repo/src/swarm/swarm.go (Start, runListener) and /repo/src/swarm/peerhandler.go
(Loop, recvLoop, requestLoop, pingLoop), as a transition system.

One step is: a connection is made (with everything up to the first message of Loop), a buffer is received and decoded, one message is handled,
requestLoop asks the tracker once, or a keep-alive message is written.  The only memory shared by two connections that is ever written is the
availability tracker, and each of its functions holds its mutex from beginning to end (piecetracker.go:74-75, 87-88, 117-118, 149-150), so a
step of this kind is atomic for the others.  Our bitfield and the files are not written after NewSwarm: no function reached from Start does.
Reading the files is a step of its own in Model/FileConc.lean; with no writer the order of the reads does not matter.
A panic in any goroutine ends the process (Go specification, Handling panics): no step follows.

Not modelled: the end of a connection (its goroutines may go on here after an error, except recvLoop), the delays of the rate limiter (see Model/Limited.lean), the order in which
goroutines are started within one connection.
-/
set_option autoImplicit false

namespace Verif.Peers
open Verif.P2P Verif.Bf Verif.Files Verif.FileIO Verif.PieceTracker Verif.Peer Verif.Handshake Verif.MsgHandler Verif.Session

/-- what does not change: the parts of `Swarm` (swarm.go:21-34) used here; `v6` is the text form of IPv6 addresses -/
structure Env where
  s : MsgHandler.Swarm
  infohash : Bytes
  ownId : Bytes
  v6 : IP → Bytes

/-- where recvLoop is (peerhandler.go:207-227): it waits for a buffer or handles one, has ended because of an error, or never gets any
further -/
inductive Recv where
  | running | ended | hangs
  deriving DecidableEq

/-- a connection: the fields of `PeerHandler` (peerhandler.go:33-43), the position of its recvLoop with the messages of the current
buffer that are still to be handled, the number of pieces its requestLoop has asked for (`len(reqs)`, peerhandler.go:238) and whether
requestLoop still makes progress.  `peer` (who it was when the connection was made), `got` (the buffers received), `handled` (the messages handled without error) and `out` (what was written) are
records of the past for the statements only. -/
structure Conn where
  peer : Info
  me : PH
  peerBf : Bitfield
  buf : Bytes
  recv : Recv
  todo : List Msg
  reqs : Nat
  asking : Bool
  got : List Bytes
  handled : List Msg
  out : List Bytes

/-- the client: the availability tracker, the connections so far, and whether a goroutine has panicked -/
structure Client where
  ppt : Tracker
  conns : List Conn
  crashed : Bool

/-- peerhandler.go:117-128, 150-155: a new handler, with what was written before -/
def newConn (p : Info) (ptr : Nat) (ph : Handler) (out : List Bytes) : Conn :=
  ⟨p, ⟨ptr, ph.info.str⟩, ph.bf, ph.buf, .running, [], 0, true, [], [], out⟩

/-- the handler after a message -/
def Conn.after (c : Conn) (st : St) : Conn := { c with peerBf := st.peerBf, buf := st.buf, out := st.out }

/-- what handling a message starts with -/
def Conn.st (c : Conn) (t : Tracker) : St := ⟨t, c.peerBf, c.buf, c.out⟩

/-- a connection is changed -/
def Client.set (σ : Client) (i : Nat) (c : Conn) : Client := { σ with conns := σ.conns.set i c }

/-- one step.  A process that has crashed makes none. -/
inductive Step (E : Env) (σ : Client) : Client → Prop
  /-- swarm.go:148-164, peerhandler.go:68-155: a peer connects and is accepted; the unchoke message is written or fails -/
  | incoming (c : Incoming) (out first : List Bytes) (p : Info) (ph : Handler) (ptr : Nat) (ok : Bool) (hc : σ.crashed = false)
      (h1 : FromIncoming E.v6 c E.infohash E.ownId E.s.bf = (out, .ok p))
      (h2 : NewPeerHandler p E.s.tor = .ok ph) (h3 : firstMessage ok = .ok first) :
      Step E σ { σ with conns := σ.conns ++ [newConn p ptr ph (out ++ first)] }
  /-- the same, with a panic -/
  | incomingPanic (c : Incoming) (hc : σ.crashed = false)
      (h : (FromIncoming E.v6 c E.infohash E.ownId E.s.bf).2 = .panic ∨
        ∃ p, (FromIncoming E.v6 c E.infohash E.ownId E.s.bf).2 = .ok p ∧ NewPeerHandler p E.s.tor = .panic) :
      Step E σ { σ with crashed := true }
  /-- swarm.go:126-135, peerhandler.go:50-64, 117-155: we connect to a peer -/
  | outgoing (p p' : Info) (out first : List Bytes) (ph : Handler) (ptr : Nat) (ok : Bool) (hc : σ.crashed = false)
      (h1 : FromBootstrap true true p E.infohash E.ownId = (out, .ok p'))
      (h2 : NewPeerHandler p' E.s.tor = .ok ph) (h3 : firstMessage ok = .ok first) :
      Step E σ { σ with conns := σ.conns ++ [newConn p ptr ph (out ++ first)] }
  /-- the same, with a panic -/
  | outgoingPanic (p : Info) (hc : σ.crashed = false) (h : NewPeerHandler p E.s.tor = .panic) : Step E σ { σ with crashed := true }
  /-- peerhandler.go:211-212, msghandler.go:11-15: a buffer is received and decoded -/
  | receive (i : Nat) (c : Conn) (buf : Bytes) (fuel : Nat) (dar : DecodeAllResult) (hc : σ.crashed = false) (hi : σ.conns[i]? = some c)
      (hr : c.recv = .running) (ht : c.todo = []) (hd : DecodeAll fuel buf = .ok dar) :
      Step E σ (σ.set i { c with got := c.got ++ [buf], todo := dar.msgs })
  /-- decoding panics -/
  | receivePanic (i : Nat) (c : Conn) (buf : Bytes) (fuel : Nat) (hc : σ.crashed = false) (hi : σ.conns[i]? = some c)
      (hr : c.recv = .running) (ht : c.todo = []) (hd : DecodeAll fuel buf = .panic) :
      Step E σ { σ.set i { c with got := c.got ++ [buf] } with crashed := true }
  /-- decoding does not end -/
  | receiveHangs (i : Nat) (c : Conn) (buf : Bytes) (hc : σ.crashed = false) (hi : σ.conns[i]? = some c)
      (hr : c.recv = .running) (ht : c.todo = []) (hd : ∀ fuel, DecodeAll fuel buf = .timeout) :
      Step E σ (σ.set i { c with got := c.got ++ [buf], recv := .hangs })
  /-- msghandler.go:17-25: a message is handled; a write succeeds or not -/
  | handle (i : Nat) (c : Conn) (m : Msg) (ms : List Msg) (ok : Bool) (st : St) (hc : σ.crashed = false) (hi : σ.conns[i]? = some c)
      (hr : c.recv = .running) (ht : c.todo = m :: ms) (hh : handleOne E.s c.me (fun _ => ok) m (c.st σ.ppt) = (st, .ok ())) :
      Step E σ { σ.set i { c.after st with todo := ms, handled := c.handled ++ [m] } with ppt := st.ppt }
  /-- msghandler.go:27-29, peerhandler.go:221-224: there is an error, recvLoop ends -/
  | handleError (i : Nat) (c : Conn) (m : Msg) (ms : List Msg) (ok : Bool) (st : St) (e : Err) (hc : σ.crashed = false) (hi : σ.conns[i]? = some c)
      (hr : c.recv = .running) (ht : c.todo = m :: ms) (hh : handleOne E.s c.me (fun _ => ok) m (c.st σ.ppt) = (st, .err e)) :
      Step E σ { σ.set i { c.after st with recv := .ended } with ppt := st.ppt }
  /-- handling the message panics -/
  | handlePanic (i : Nat) (c : Conn) (m : Msg) (ms : List Msg) (ok : Bool) (st : St) (hc : σ.crashed = false) (hi : σ.conns[i]? = some c)
      (hr : c.recv = .running) (ht : c.todo = m :: ms) (hh : handleOne E.s c.me (fun _ => ok) m (c.st σ.ppt) = (st, .panic)) :
      Step E σ { σ with crashed := true }
  /-- handling the message does not end -/
  | handleHangs (i : Nat) (c : Conn) (m : Msg) (ms : List Msg) (ok : Bool) (st : St) (hc : σ.crashed = false) (hi : σ.conns[i]? = some c)
      (hr : c.recv = .running) (ht : c.todo = m :: ms) (hh : handleOne E.s c.me (fun _ => ok) m (c.st σ.ppt) = (st, .timeout)) :
      Step E σ { σ.set i { c.after st with recv := .hangs } with ppt := st.ppt }
  /-- peerhandler.go:241-260: requestLoop gets a piece and writes the requests; errors of the writes are ignored -/
  | request (i : Nat) (c : Conn) (t : Tracker) (n fuel : Nat) (ms : List Msg) (ws out : List Bytes) (hc : σ.crashed = false) (hi : σ.conns[i]? = some c)
      (hb : E.s.bf.Complete = false) (ha : c.asking = true) (hq : c.reqs < 5) (hn : NextPiece σ.ppt E.s.bf c.me = .ok (t, n, true))
      (hm : createReqMessages fuel E.s.tor (UInt32.ofNat n) = .ok ms) (hw : ws.map Res.ok = ms.map Msg.Encode) (ho : out.Sublist ws) :
      Step E σ { σ.set i { c with reqs := c.reqs + 1, out := c.out ++ out } with ppt := t }
  /-- peerhandler.go:244, 253: making the requests does not end -/
  | requestHangs (i : Nat) (c : Conn) (t : Tracker) (n : Nat) (hc : σ.crashed = false) (hi : σ.conns[i]? = some c)
      (hb : E.s.bf.Complete = false) (ha : c.asking = true) (hq : c.reqs < 5) (hn : NextPiece σ.ppt E.s.bf c.me = .ok (t, n, true))
      (hm : ∀ fuel, createReqMessages fuel E.s.tor (UInt32.ofNat n) = .timeout) :
      Step E σ { σ.set i { c with asking := false } with ppt := t }
  /-- peerhandler.go:244-248: there is no piece to ask for -/
  | requestNone (i : Nat) (c : Conn) (t : Tracker) (n : Nat) (hc : σ.crashed = false) (hi : σ.conns[i]? = some c)
      (hb : E.s.bf.Complete = false) (ha : c.asking = true) (hq : c.reqs < 5) (hn : NextPiece σ.ppt E.s.bf c.me = .ok (t, n, false)) :
      Step E σ { σ with ppt := t }
  /-- asking for a piece panics -/
  | requestPanic (i : Nat) (c : Conn) (hc : σ.crashed = false) (hi : σ.conns[i]? = some c)
      (hb : E.s.bf.Complete = false) (ha : c.asking = true) (hq : c.reqs < 5) (hn : NextPiece σ.ppt E.s.bf c.me = .panic) :
      Step E σ { σ with crashed := true }
  /-- peerhandler.go:300-301: a keep-alive message is written -/
  | ping (i : Nat) (c : Conn) (m : Bytes) (hc : σ.crashed = false) (hi : σ.conns[i]? = some c) (hm : Msg.keepAlive.Encode = .ok m) :
      Step E σ (σ.set i { c with out := c.out ++ [m] })

/-- swarm.go:88-90: the state after NewSwarm -/
def Initial (E : Env) (σ : Client) : Prop := NewPeerPieceTracker E.s.tor.numPieces = .ok σ.ppt ∧ σ.conns = [] ∧ σ.crashed = false

/-- peerhandler.go:20, 205 and readloop.go:27, 77: the size of the one buffer that a connection is read into, so no buffer received is longer.
The steps above do not depend on it. -/
def RecvBufSize : Nat := 16384

end Verif.Peers
