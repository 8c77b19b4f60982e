import Verif.Model.Go
/-
Model of the goroutines of one peer, /repo/src/swarm/peerhandler.go:142-314, as a transition system: `Loop` and the three goroutines it
starts.  Only the communication is modelled: the channels `chErr` and `chDone` of `Loop` (145, 148; both unbuffered), the wait group
`procs`, and the channel `ph.chErr` on which `Loop` reports.

Simplifications: what the messages do is left out (Model/MsgHandler.lean, Model/ReadLoop.lean); an error may turn up at any time; a keep-alive
that is sent and a message that is handled change nothing and are no steps; `Finish` (219) may return or block, both of which happen
(C56); `createReqMessages` is entered and not left, as its loop has no end (C52).  `Bf.Complete()` may become true at any time and stays
so, and this is seen by `requestLoop` at once.
-/
set_option autoImplicit false

namespace Verif.PeerLoop

/-- where `Loop` is -/
inductive Main where
  /-- in the select statement 169-172 -/
  | wait
  /-- before 175: sends on `chDone` -/
  | kill
  /-- before 176 -/
  | waitProcs
  /-- before 179: sends on `ph.chErr` -/
  | report
  /-- `Loop` has returned -/
  | returned
  deriving DecidableEq, Repr

/-- where `pingLoop` is -/
inductive Ping where
  /-- before 288 -/
  | notStarted
  /-- in the select statement 301 -/
  | run
  /-- before 305: sends an error -/
  | fail
  | ended
  deriving DecidableEq, Repr

/-- where `recvLoop` is -/
inductive Recv where
  /-- before 199 -/
  | notStarted
  /-- in the select statement 212 -/
  | run
  /-- before 224: sends an error -/
  | fail
  /-- in `Finish`, 219 -/
  | finish
  /-- in `Finish`, which will not return -/
  | blocked
  | ended
  deriving DecidableEq, Repr

/-- where `requestLoop` is -/
inductive Req where
  /-- before 232 -/
  | notStarted
  /-- before 241 -/
  | check
  /-- in the loop 244-260 -/
  | fill
  /-- in `createReqMessages`, 253 -/
  | creating
  | ended
  deriving DecidableEq, Repr

structure State where
  main : Main
  ping : Ping
  recv : Recv
  req : Req
  complete : Bool
  deriving DecidableEq, Repr

/-- `Loop` after 161 -/
def init (complete : Bool) : State := ⟨.wait, .notStarted, .notStarted, .notStarted, complete⟩

def Ping.counted : Ping → Bool
  | .run | .fail => true
  | _ => false

def Recv.counted : Recv → Bool
  | .run | .fail | .finish | .blocked => true
  | _ => false

def Req.counted : Req → Bool
  | .check | .fill | .creating => true
  | _ => false

/-- the counter of the wait group is zero: every goroutine that has counted itself in (199, 232, 288) has counted itself out -/
def State.idle (s : State) : Bool := !s.ping.counted && !s.recv.counted && !s.req.counted

/-- The steps.  `heard` says whether somebody receives from `ph.chErr`.  In the code this channel is `swarm.ChErr`
(peerhandler.go:123), which is declared (swarm.go:33) and never made, so it is nil and a send on it blocks for ever: the code is
`Step false`. -/
inductive Step (heard : Bool) : State → State → Prop
  /-- 288 -/
  | pingStart (s : State) (h : s.ping = .notStarted) : Step heard s { s with ping := .run }
  /-- 199-206 -/
  | recvStart (s : State) (h : s.recv = .notStarted) : Step heard s { s with recv := .run }
  /-- 232-238 -/
  | reqStart (s : State) (h : s.req = .notStarted) : Step heard s { s with req := .check }
  /-- 302-304: a keep-alive cannot be sent -/
  | pingFail (s : State) (h : s.ping = .run) : Step heard s { s with ping := .fail }
  /-- 213-217 and 223: a message is refused or the connection fails -/
  | recvFail (s : State) (h : s.recv = .run) : Step heard s { s with recv := .fail }
  /-- 216-217 with a nil error (readloop.go:78-79): `recvLoop` returns without a word -/
  | recvQuiet (s : State) (h : s.recv = .run) : Step heard s { s with recv := .ended }
  /-- 305 and 172 meet -/
  | pingReport (s : State) (h : s.ping = .fail) (hm : s.main = .wait) : Step heard s { s with ping := .ended, main := .kill }
  /-- 224 and 172 meet -/
  | recvReport (s : State) (h : s.recv = .fail) (hm : s.main = .wait) : Step heard s { s with recv := .ended, main := .kill }
  /-- 175 and 310 meet -/
  | killPing (s : State) (h : s.ping = .run) (hm : s.main = .kill) : Step heard s { s with ping := .ended, main := .waitProcs }
  /-- 175 and 218 meet -/
  | killRecv (s : State) (h : s.recv = .run) (hm : s.main = .kill) : Step heard s { s with recv := .finish, main := .waitProcs }
  /-- 219-220 -/
  | finish (s : State) (h : s.recv = .finish) : Step heard s { s with recv := .ended }
  /-- 219, the other outcome -/
  | finishBlocks (s : State) (h : s.recv = .finish) : Step heard s { s with recv := .blocked }
  /-- 241: everything is there -/
  | reqEnd (s : State) (h : s.req = .check) (hc : s.complete = true) : Step heard s { s with req := .ended }
  /-- 241 -/
  | reqMore (s : State) (h : s.req = .check) (hc : s.complete = false) : Step heard s { s with req := .fill }
  /-- 245-249 -/
  | reqNone (s : State) (h : s.req = .fill) : Step heard s { s with req := .check }
  /-- 250-253 -/
  | reqCreate (s : State) (h : s.req = .fill) : Step heard s { s with req := .creating }
  /-- 176 -/
  | waited (s : State) (hm : s.main = .waitProcs) (h : s.idle = true) : Step heard s { s with main := .report }
  /-- 179-183 -/
  | report (s : State) (hm : s.main = .report) (hh : heard = true) : Step heard s { s with main := .returned }
  /-- another peer brings the last piece -/
  | completed (s : State) (h : s.complete = false) : Step heard s { s with complete := true }

end Verif.PeerLoop
