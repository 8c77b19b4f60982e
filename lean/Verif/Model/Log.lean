import Verif.Model.Handshake
import Verif.Model.Startup
/-
Model of the log: every call of the package log in /repo/src (swarm.go, peerhandler.go, msghandler.go, readloop.go), and the
goroutines that make these calls, as a transition system.

Modelled: what the package log writes for a call (its standard logger with the flags LstdFlags: date, time, text, and a line feed if the text does not end with one; a call is one write,
calls of different goroutines do not mix); the connections with their goroutines `Loop`, `pingLoop`, `recvLoop`, `requestLoop` and `Run` (readloop.go) as in
Model/PeerLoop.lean, here with the calls of the log.
Simplified: what a message does is left open, except that a bitfield is registered or refused; the channels between `Run` and `recvLoop` are in Model/ReadLoop.lean and left out here;
`Finish` returns or does not; counting itself in (peerhandler.go:199, 232, 288) and the first entry of a goroutine are one step, so are its last entry and counting itself out;
a write and what it is known by afterwards are one step.  The piece length is positive, so that requestLoop never comes to its two messages on standard output (C52).
A panic is the end of an execution and no step here.
-/
set_option autoImplicit false

namespace Verif.Log
open Verif.P2P Verif.Peer Verif.Handshake Verif.Bencode

/-- a call of `log.Printf` or `log.Println`.  Texts of errors (`e`), of addresses (`addr`, `remote`), of peers (`str`, info.go:28) and of floating point numbers (`pc`) are what `%v` gives. -/
inductive Entry where
  /-- swarm.go:47 -/
  | reading (input : Bytes)
  /-- swarm.go:59 -/
  | opening
  /-- swarm.go:73 -/
  | has (nset nbits : Int) (pc : Bytes)
  /-- swarm.go:80 -/
  | asking (announce : Bytes)
  /-- swarm.go:130 -/
  | noBootstrap (addr e : Bytes)
  /-- swarm.go:145 -/
  | listening (port : UInt16)
  /-- swarm.go:154 -/
  | newClient (remote : Bytes)
  /-- swarm.go:159 -/
  | refused (e : Bytes)
  /-- peerhandler.go:94 -/
  | goodHandshake (remote : Bytes)
  /-- peerhandler.go:102 -/
  | sentHandshake (remote : Bytes)
  /-- peerhandler.go:110 -/
  | sentBitfield (remote : Bytes)
  /-- peerhandler.go:154 -/
  | unchokeError (e : Bytes)
  /-- peerhandler.go:174 -/
  | killing (str e : Bytes)
  /-- peerhandler.go:183 -/
  | done (addr : Bytes)
  /-- peerhandler.go:203 -/
  | recvStart (str : Bytes)
  /-- peerhandler.go:202 -/
  | recvEnd (str : Bytes)
  /-- msghandler.go:15 -/
  | decoded (read len : Nat) (pc addr : Bytes)
  /-- msghandler.go:53 -/
  | registered
  /-- peerhandler.go:235 -/
  | reqStart (str : Bytes)
  /-- peerhandler.go:236 -/
  | reqEnd (str : Bytes)
  /-- peerhandler.go:292 -/
  | pingStart (addr : Bytes)
  /-- peerhandler.go:306 -/
  | pingError (addr : Bytes)
  /-- peerhandler.go:309 -/
  | pingSent (addr : Bytes)
  /-- peerhandler.go:290 -/
  | pingEnd (str : Bytes)
  /-- readloop.go:66 -/
  | readStart (remote : Bytes)
  /-- readloop.go:67 -/
  | readEnd (remote : Bytes)
  deriving DecidableEq, Repr

/-- the lines cited at `Entry`: the text that is made of the arguments -/
def Entry.text : Entry → Bytes
  | .reading input => ascii "reading torrent file [" ++ input ++ ascii "]\n"
  | .opening => ascii "openning and validating files"
  | .has nset nbits pc => ascii "have " ++ intDec nset ++ ascii "/" ++ intDec nbits ++ ascii " (" ++ pc ++ ascii "%) pieces"
  | .asking announce => ascii "sending get to tracker [" ++ announce ++ ascii "]\n"
  | .noBootstrap addr e => ascii "failed to bootstrap " ++ addr ++ ascii " : " ++ e
  | .listening port => ascii "Listening on port " ++ natDec port.toNat ++ ascii "\n"
  | .newClient remote => ascii "new client @ " ++ remote
  | .refused e => e ++ ascii "\n"
  | .goodHandshake remote => ascii "good handshake from " ++ remote
  | .sentHandshake remote => ascii "Sent " ++ remote ++ ascii " handshake\n"
  | .sentBitfield remote => ascii "Sent " ++ remote ++ ascii " bitfield\n"
  | .unchokeError e => ascii "error unchoking: " ++ e ++ ascii "\n"
  | .killing str e => ascii "error peer [" ++ str ++ ascii "] (killing): " ++ e
  | .done addr => ascii "peer " ++ addr ++ ascii " done"
  | .recvStart str => ascii "start recvLoop [" ++ str ++ ascii "]"
  | .recvEnd str => ascii "end recvLoop [" ++ str ++ ascii "]"
  | .decoded read len pc addr => ascii "Decoded " ++ natDec read ++ ascii "/" ++ natDec len ++ ascii " (" ++ pc ++ ascii "%) bytes from " ++ addr ++ ascii "\n"
  | .registered => ascii "registered bitfield"
  | .reqStart str => ascii "start requestLoop [" ++ str ++ ascii "]"
  | .reqEnd str => ascii "end requestLoop [" ++ str ++ ascii "]"
  | .pingStart addr => ascii "start pingLoop " ++ addr
  | .pingError addr => ascii "error with keep alive to " ++ addr
  | .pingSent addr => ascii "sent keep alive to " ++ addr
  | .pingEnd str => ascii "end pingLoop [" ++ str ++ ascii "]"
  | .readStart remote => ascii "started read loop for " ++ remote
  | .readEnd remote => ascii "ended read loop for " ++ remote

/-- `log.itoa` with a width: decimal, filled with zeros on the left; for numbers that fit -/
def pad : Nat → Nat → Bytes
  | 0, _ => []
  | w + 1, n => pad w (n / 10) ++ [UInt8.ofNat (48 + n % 10)]

/-- a moment, as the clock shows it -/
structure Time where
  year : Nat
  month : Nat
  day : Nat
  hour : Nat
  min : Nat
  sec : Nat

/-- `log.formatHeader` with the flags LstdFlags (nothing in /repo changes them), for years up to 9999 -/
def Time.header (t : Time) : Bytes :=
  pad 4 t.year ++ [47] ++ pad 2 t.month ++ [47] ++ pad 2 t.day ++ [32] ++ pad 2 t.hour ++ [58] ++ pad 2 t.min ++ [58] ++ pad 2 t.sec ++ [32]

/-- an entry of the log: the time, the connection that it is about (a record for the statements only) and what is said -/
structure Line where
  time : Time
  conn : Option Nat
  entry : Entry

/-- `log.Output`: what is written -/
def Line.bytes (l : Line) : Bytes :=
  l.time.header ++ l.entry.text ++ (if l.entry.text.getLast? = some 10 then [] else [10])

/-- where a connection is.  Before `Loop` (swarm.go:126-135, 148-164): in FromBootstrap; in FromIncoming before its lines 94, 102, 110; given up. -/
inductive Stage where
  | calling
  | shaking (ip : IP) (port : UInt16)
  | good (id : Bytes) (ip : IP) (port : UInt16)
  | greeted (id : Bytes) (ip : IP) (port : UInt16)
  | gone
  | looping
  deriving DecidableEq, Repr

/-- where `Loop` is; the text is that of the error -/
inductive Main where
  /-- before 152 -/
  | begin
  /-- in the select statement 169-172 -/
  | wait
  /-- before 174 -/
  | killing (e : Bytes)
  /-- before 175 -/
  | kill
  /-- before 176 -/
  | waitProcs
  /-- before 179 -/
  | report
  /-- behind 183 -/
  | returned
  deriving DecidableEq, Repr

/-- where `pingLoop` is -/
inductive Ping where
  | notStarted
  /-- in the select statement 301 -/
  | run
  /-- before 309, behind a write that succeeded -/
  | sent
  /-- before 305 -/
  | fail (e : Bytes)
  /-- before 306 -/
  | told
  /-- before 309, behind a write that failed -/
  | failed
  /-- before the deferred call 290 -/
  | ending
  | ended
  deriving DecidableEq, Repr

/-- where `recvLoop` is -/
inductive Recv where
  | notStarted
  /-- in the select statement 212 -/
  | run
  /-- in the loop msghandler.go:17-30, with the messages that are still to be handled -/
  | busy (todo : List Msg)
  /-- before 224 -/
  | fail (e : Bytes)
  /-- in `Finish`, 219 -/
  | finish
  /-- in `Finish`, which will not return -/
  | blocked
  /-- before the deferred call 202 -/
  | ending
  | ended
  deriving DecidableEq, Repr

/-- where `requestLoop` is -/
inductive Req where
  | notStarted
  /-- in the loop 241-262 -/
  | run
  /-- in `createReqMessages`, which does not return (C52) -/
  | creating
  | ended
  deriving DecidableEq, Repr

/-- where `Run` (readloop.go) is -/
inductive Reader where
  | notStarted
  | run
  | ended
  deriving DecidableEq, Repr

/-- a connection.  `info` is the peer (for an incoming connection when it is known), `remote` the text of `conn.RemoteAddr()`.  The rest are records for the statements only:
whether our handshake and our bitfield were written (`hs`, `bf`), how many keep-alive messages were written and how many failed (`pings`, `lost`), the buffers received with
the messages found in them (`got`), and the number of bitfields registered (`regs`). -/
structure Conn where
  info : Info
  remote : Bytes
  stage : Stage
  main : Main
  ping : Ping
  recv : Recv
  req : Req
  reader : Reader
  hs : Bool
  bf : Bool
  pings : Nat
  lost : Nat
  got : List (Bytes × List Msg)
  regs : Nat

/-- the counter of the wait group is zero -/
def Conn.idle (c : Conn) : Bool :=
  (c.ping == .notStarted || c.ping == .ended) && (c.recv == .notStarted || c.recv == .ended) && (c.req == .notStarted || c.req == .ended)

/-- what does not change: the info-hash, the text of IPv6 addresses and of remote addresses, whether all pieces are there (nothing changes that while the program serves, C83),
and whether somebody receives from `ph.chErr`: in the code this channel is nil (see Model/PeerLoop.lean), so nobody does. -/
structure Env where
  infohash : Bytes
  v6 : IP → Bytes
  remote : IP → UInt16 → Bytes
  complete : Bool
  heard : Bool

/-- swarm.go:126-134: a connection that we are about to make -/
def outgoing (E : Env) (p : Info) : Conn :=
  ⟨p, E.remote p.ip p.port, .calling, .begin, .notStarted, .notStarted, .notStarted, .notStarted, false, false, 0, 0, [], 0⟩

/-- swarm.go:150-164: a connection that was accepted -/
def accepted (E : Env) (ip : IP) (port : UInt16) : Conn :=
  ⟨MakePeer E.v6 [] ip port, E.remote ip port, .shaking ip port, .begin, .notStarted, .notStarted, .notStarted, .notStarted, false, false, 0, 0, [], 0⟩

/-- a step of one connection, with the calls of the log made in it -/
inductive CStep (E : Env) (c : Conn) : List Entry → Conn → Prop
  /-- peerhandler.go:51-54, 58-61, swarm.go:130 -/
  | dialFails (e : Bytes) (h : c.stage = .calling) : CStep E c [.noBootstrap c.info.addr e] { c with stage := .gone }
  /-- peerhandler.go:56-63, swarm.go:132 -/
  | dialled (h : c.stage = .calling) : CStep E c [] { c with stage := .looping, hs := true }
  /-- peerhandler.go:71-88, swarm.go:159: no TCP, no deadline, or nothing can be read -/
  | shakeFails (ip : IP) (port : UInt16) (e : Bytes) (h : c.stage = .shaking ip port) : CStep E c [.refused e] { c with stage := .gone }
  /-- peerhandler.go:89-93, swarm.go:159 -/
  | badHandshake (ip : IP) (port : UInt16) (d : Bytes) (h : c.stage = .shaking ip port) (hv : ValidHandshake (readBuf d) E.infohash = false) :
      CStep E c [.refused (ascii "bad peer handshake")] { c with stage := .gone }
  /-- peerhandler.go:89-94 -/
  | goodHandshake (ip : IP) (port : UInt16) (d id : Bytes) (h : c.stage = .shaking ip port) (hv : ValidHandshake (readBuf d) E.infohash = true)
      (hid : Id (readBuf d) = .ok id) : CStep E c [.goodHandshake c.remote] { c with stage := .good id ip port }
  /-- peerhandler.go:97-101, swarm.go:159 -/
  | greetFails (ip : IP) (port : UInt16) (id e : Bytes) (h : c.stage = .good id ip port) : CStep E c [.refused e] { c with stage := .gone }
  /-- peerhandler.go:97-102 -/
  | greet (ip : IP) (port : UInt16) (id : Bytes) (h : c.stage = .good id ip port) :
      CStep E c [.sentHandshake c.remote] { c with stage := .greeted id ip port, hs := true }
  /-- peerhandler.go:105-109, swarm.go:159 -/
  | bitfieldFails (ip : IP) (port : UInt16) (id e : Bytes) (h : c.stage = .greeted id ip port) : CStep E c [.refused e] { c with stage := .gone }
  /-- peerhandler.go:105-114, swarm.go:161-162 -/
  | bitfield (ip : IP) (port : UInt16) (id : Bytes) (h : c.stage = .greeted id ip port) :
      CStep E c [.sentBitfield c.remote] { c with stage := .looping, bf := true, info := MakePeer E.v6 id ip port }
  /-- peerhandler.go:151-152 -/
  | unchoke (h : c.stage = .looping) (hm : c.main = .begin) : CStep E c [] { c with main := .wait }
  /-- peerhandler.go:151-155 -/
  | unchokeFails (e : Bytes) (h : c.stage = .looping) (hm : c.main = .begin) : CStep E c [.unchokeError e] { c with main := .wait }
  /-- 157, 288-292 -/
  | pingStart (hm : c.main ≠ .begin) (h : c.ping = .notStarted) : CStep E c [.pingStart c.info.addr] { c with ping := .run }
  /-- 302-303: a keep-alive is written -/
  | pingWrite (h : c.ping = .run) : CStep E c [] { c with ping := .sent, pings := c.pings + 1 }
  /-- 309 -/
  | pingSays (h : c.ping = .sent) : CStep E c [.pingSent c.info.addr] { c with ping := .run }
  /-- 302-304: a keep-alive cannot be written -/
  | pingFail (e : Bytes) (h : c.ping = .run) : CStep E c [] { c with ping := .fail e, lost := c.lost + 1 }
  /-- 305 and 172 meet -/
  | pingReport (e : Bytes) (h : c.ping = .fail e) (hm : c.main = .wait) : CStep E c [] { c with ping := .told, main := .killing e }
  /-- 306-307 -/
  | pingSaysError (h : c.ping = .told) : CStep E c [.pingError c.info.addr] { c with ping := .failed }
  /-- 309 -/
  | pingSaysLost (h : c.ping = .failed) : CStep E c [.pingSent c.info.addr] { c with ping := .ending }
  /-- 290, 289 -/
  | pingEnd (h : c.ping = .ending) : CStep E c [.pingEnd c.info.str] { c with ping := .ended }
  /-- 159, 199-206 -/
  | recvStart (hm : c.main ≠ .begin) (h : c.recv = .notStarted) : CStep E c [.recvStart c.info.str] { c with recv := .run }
  /-- 213-214, msghandler.go:13-15 -/
  | receive (buf pc : Bytes) (fuel : Nat) (dar : DecodeAllResult) (h : c.recv = .run) (hd : DecodeAll fuel buf = .ok dar) :
      CStep E c [.decoded dar.read buf.length pc c.info.addr] { c with recv := .busy dar.msgs, got := c.got ++ [(buf, dar.msgs)] }
  /-- msghandler.go:22-24, 41-56 -/
  | registers (n : UInt32) (b : Bf.Bitfield) (ms : List Msg) (h : c.recv = .busy (.bitfield n b :: ms)) :
      CStep E c [.registered] { c with recv := .busy ms, regs := c.regs + 1 }
  /-- msghandler.go:41-43 -/
  | rejects (n : UInt32) (b : Bf.Bitfield) (ms : List Msg) (h : c.recv = .busy (.bitfield n b :: ms)) :
      CStep E c [] { c with recv := .fail (ascii "invalid bitfield") }
  /-- msghandler.go:18-25 for other messages -/
  | handles (m : Msg) (ms : List Msg) (h : c.recv = .busy (m :: ms)) (hm : ∀ n b, m ≠ .bitfield n b) : CStep E c [] { c with recv := .busy ms }
  /-- msghandler.go:19-21, 27-29 -/
  | requestFails (i b l : UInt32) (ms : List Msg) (e : Bytes) (h : c.recv = .busy (.request i b l :: ms)) : CStep E c [] { c with recv := .fail e }
  /-- msghandler.go:32, 215 -/
  | handled (h : c.recv = .busy []) : CStep E c [] { c with recv := .run }
  /-- 216-217, 223: the connection fails -/
  | recvFail (e : Bytes) (h : c.recv = .run) : CStep E c [] { c with recv := .fail e }
  /-- 216-217 with a nil error -/
  | recvQuiet (h : c.recv = .run) : CStep E c [] { c with recv := .ending }
  /-- 224 and 172 meet -/
  | recvReport (e : Bytes) (h : c.recv = .fail e) (hm : c.main = .wait) : CStep E c [] { c with recv := .ending, main := .killing e }
  /-- 219-220 -/
  | finish (h : c.recv = .finish) : CStep E c [] { c with recv := .ending }
  /-- 219, the other outcome (C56) -/
  | finishBlocks (h : c.recv = .finish) : CStep E c [] { c with recv := .blocked }
  /-- 202, 200 -/
  | recvEnd (h : c.recv = .ending) : CStep E c [.recvEnd c.info.str] { c with recv := .ended }
  /-- 161, 232-236 -/
  | reqStart (hm : c.main ≠ .begin) (h : c.req = .notStarted) : CStep E c [.reqStart c.info.str] { c with req := .run }
  /-- 244-253 -/
  | reqCreate (h : c.req = .run) (hc : E.complete = false) : CStep E c [] { c with req := .creating }
  /-- 241, 236, 233 -/
  | reqEnd (h : c.req = .run) (hc : E.complete = true) : CStep E c [.reqEnd c.info.str] { c with req := .ended }
  /-- 206, readloop.go:66 -/
  | readStart (hr : c.recv ≠ .notStarted) (h : c.reader = .notStarted) : CStep E c [.readStart c.remote] { c with reader := .run }
  /-- readloop.go:67 -/
  | readEnd (h : c.reader = .run) : CStep E c [.readEnd c.remote] { c with reader := .ended }
  /-- 173-174 -/
  | says (e : Bytes) (hm : c.main = .killing e) : CStep E c [.killing c.info.str e] { c with main := .kill }
  /-- 175 and 310 meet -/
  | killPing (hm : c.main = .kill) (h : c.ping = .run) : CStep E c [] { c with ping := .ending, main := .waitProcs }
  /-- 175 and 218 meet -/
  | killRecv (hm : c.main = .kill) (h : c.recv = .run) : CStep E c [] { c with recv := .finish, main := .waitProcs }
  /-- 176 -/
  | waited (hm : c.main = .waitProcs) (h : c.idle = true) : CStep E c [] { c with main := .report }
  /-- 179-183 -/
  | report (hm : c.main = .report) (hh : E.heard = true) : CStep E c [.done c.info.addr] { c with main := .returned }

/-- the program while it serves: its connections, whether the port is open, and the log -/
structure State where
  conns : List Conn
  «open» : Bool
  log : List Line

/-- a step of the program -/
inductive Step (E : Env) (σ : State) : State → Prop
  /-- swarm.go:141-145 -/
  | listen (t : Time) (port : UInt16) (h : σ.open = false) : Step E σ { σ with «open» := true, log := σ.log ++ [⟨t, none, .listening port⟩] }
  /-- swarm.go:125-127: we begin to call a peer; all peers are made by MakePeer (tracker.go:218, 247) -/
  | call (id : Bytes) (ip : IP) (port : UInt16) : Step E σ { σ with conns := σ.conns ++ [outgoing E (MakePeer E.v6 id ip port)] }
  /-- swarm.go:150-156: somebody connects -/
  | accept (t : Time) (ip : IP) (port : UInt16) (h : σ.open = true) :
      Step E σ { σ with conns := σ.conns ++ [accepted E ip port], log := σ.log ++ [⟨t, some σ.conns.length, .newClient (E.remote ip port)⟩] }
  /-- one of the connections goes on; `t` is the time -/
  | work (i : Nat) (t : Time) (c c' : Conn) (es : List Entry) (hi : σ.conns[i]? = some c) (h : CStep E c es c') :
      Step E σ { σ with conns := σ.conns.set i c', log := σ.log ++ es.map fun e => ⟨t, some i, e⟩ }

/-- swarm.go:62-68: what is known about our pieces -/
def checked (w : Startup.World) (tor : Torrent.Torrent) (fs : FS.State) : Res Bf.Bitfield := do
  let b0 ← Bf.NewBitfield tor.info.numPieces
  Swarm.Validate w.H fs (FileIO.openedAll tor.info) b0

/-- swarm.go:62-80: what is logged behind the files being opened -/
def restLog (w : Startup.World) (pc : Bytes) (tor : Torrent.Torrent) (fs : FS.State) : List Entry :=
  match checked w tor fs with
  | .ok b => [.has b.nset b.nbits pc, .asking tor.announce]
  | _ => []

/-- swarm.go:39-96 `NewSwarm` as in Model/Startup.lean, with the calls of the log (swarm.go:47, 59, 73, 80); `pc` is the text of the percentage -/
inductive Starts (sp : Bool) (w : Startup.World) (o : Startup.Options) (id : Bytes) (readOk : Bool) (pc : Bytes) : FS.State → Res Startup.Started → FS.State → List Entry → Prop
  | rejected (fs : FS.State) (e : Err) (h : Torrent.FromTorrentFile w.H (if readOk then fs o.input else none) w.spareFile o.workingDir = .err e) :
      Starts sp w o id readOk pc fs (.err e) fs [.reading o.input]
  | crashed (fs : FS.State) (h : Torrent.FromTorrentFile w.H (if readOk then fs o.input else none) w.spareFile o.workingDir = .panic) :
      Starts sp w o id readOk pc fs .panic fs [.reading o.input]
  | noFiles (fs fs' : FS.State) (tor : Torrent.Torrent) (e : Err)
      (h : Torrent.FromTorrentFile w.H (if readOk then fs o.input else none) w.spareFile o.workingDir = .ok tor)
      (hx : FS.Exec sp (FileIO.OCATAll tor.info.flist) fs (.done (.err e)) fs') : Starts sp w o id readOk pc fs (.err e) fs' [.reading o.input, .opening]
  | filesCrashed (fs fs' : FS.State) (tor : Torrent.Torrent)
      (h : Torrent.FromTorrentFile w.H (if readOk then fs o.input else none) w.spareFile o.workingDir = .ok tor)
      (hx : FS.Exec sp (FileIO.OCATAll tor.info.flist) fs (.done .panic) fs') : Starts sp w o id readOk pc fs .panic fs' [.reading o.input, .opening]
  | ready (fs fs' : FS.State) (tor : Torrent.Torrent)
      (h : Torrent.FromTorrentFile w.H (if readOk then fs o.input else none) w.spareFile o.workingDir = .ok tor)
      (hx : FS.Exec sp (FileIO.OCATAll tor.info.flist) fs (.done (.ok ())) fs') :
      Starts sp w o id readOk pc fs (Startup.finish w o id tor fs') fs' ([.reading o.input, .opening] ++ restLog w pc tor fs')

/-- swarm.go:119: the state after a start with this log -/
def Initial (es : List Entry) (σ : State) : Prop :=
  σ.conns = [] ∧ σ.open = false ∧ σ.log.map Line.entry = es ∧ ∀ l ∈ σ.log, l.conn = none

/-- standard error -/
def State.stderr (σ : State) : Bytes := (σ.log.map Line.bytes).flatten

end Verif.Log
