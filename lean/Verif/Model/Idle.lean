import Verif.Model.Go
/-
Model of time on a connection: keep-alive messages of one side, /repo/src/swarm/peerhandler.go:286-314 `pingLoop`, and the deadline for
reading of the other side, /repo/src/io/readloop.go:65-91 `Run`, as a transition system in which time passes.

Times are natural numbers (any unit).  A ticker puts a value into its channel, which has room for one, every `period`; a value for which
there is no room is dropped.  Bounded delays are assumed: the value in the channel is taken and the message handed to the connection within
`act`, it arrives within `net`, and a read for which there is data, or whose deadline is over, returns within `wake`.  Handling what was
read may take any time.  Other data of the peer may arrive at any moment.  No write fails and nothing is lost.
What a read returns and what is done with it is in Model/ReadLoop.lean and Model/MsgHandler.lean.
-/
set_option autoImplicit false

namespace Verif.Idle

/-- peerhandler.go:23: 120 s, in milliseconds -/
def GetKeepAlive : Nat := 120000

/-- peerhandler.go:24: 60 s -/
def SendKeepAlive : Nat := 60000

structure Params where
  /-- of the sender's ticker, peerhandler.go:295 -/
  period : Nat
  /-- of the reader, peerhandler.go:205, readloop.go:71 -/
  timeout : Nat
  act : Nat
  net : Nat
  wake : Nat

/-- where the reader is -/
inductive Rd where
  /-- in `conn.Read`, readloop.go:77, with this deadline -/
  | reading (deadline : Nat)
  /-- anywhere between two calls, readloop.go:82-88 and 70-71 -/
  | busy
  /-- `conn.Read` has returned an error because of the deadline, readloop.go:78-80 -/
  | timedOut
  deriving DecidableEq, Repr

structure State where
  now : Nat
  /-- when the ticker puts the next value into its channel -/
  next : Nat
  /-- since when a value has been in the channel of the ticker -/
  tick : Option Nat
  /-- when the messages under way were written -/
  wire : List Nat
  /-- when the sender last wrote a keep-alive message (at first: when it made the ticker) -/
  sent : Nat
  /-- since when the reader could have returned data -/
  avail : Option Nat
  rd : Rd
  deriving DecidableEq, Repr

/-- the start: the first read begins now, the ticker of the peer is made at the time `late` -/
def init (p : Params) (late : Nat) : State := ⟨0, late + p.period, none, [], late, none, .reading p.timeout⟩

/-- whether nothing has to happen before the time `t` -/
structure MayPass (p : Params) (s : State) (t : Nat) : Prop where
  ticker : t ≤ s.next
  act : ∀ u, s.tick = some u → t ≤ u + p.act
  net : ∀ u, u ∈ s.wire → t ≤ u + p.net
  data : ∀ d u, s.rd = .reading d → s.avail = some u → t ≤ u + p.wake
  deadline : ∀ d, s.rd = .reading d → t ≤ d + p.wake

/-- what can be seen of a step -/
inductive Label where
  | tau
  /-- data arrives -/
  | arrive
  deriving DecidableEq, Repr

inductive Step (p : Params) : State → Label → State → Prop
  /-- time passes -/
  | pass (s : State) (t : Nat) (h : s.now ≤ t) (hm : MayPass p s t) : Step p s .tau { s with now := t }
  /-- peerhandler.go:295: the ticker -/
  | fire (s : State) (h : s.now = s.next) :
      Step p s .tau { s with next := s.next + p.period, tick := some (s.tick.getD s.now) }
  /-- peerhandler.go:302-303 -/
  | ping (s : State) (u : Nat) (h : s.tick = some u) : Step p s .tau { s with tick := none, wire := s.wire ++ [s.now], sent := s.now }
  /-- a keep-alive message arrives -/
  | arrive (s : State) (u : Nat) (w w' : List Nat) (h : s.wire = w ++ u :: w') :
      Step p s .arrive { s with wire := w ++ w', avail := some (s.avail.getD s.now) }
  /-- other data arrives -/
  | data (s : State) : Step p s .arrive { s with avail := some (s.avail.getD s.now) }
  /-- readloop.go:77: `conn.Read` returns data; perhaps there is more than fits into the buffer -/
  | ret (s : State) (d u : Nat) (rest : Bool) (hr : s.rd = .reading d) (ha : s.avail = some u) :
      Step p s .tau { s with rd := .busy, avail := if rest then some s.now else none }
  /-- readloop.go:77: `conn.Read` returns because of the deadline (also if data came late) -/
  | expire (s : State) (d : Nat) (hr : s.rd = .reading d) (hd : d ≤ s.now) : Step p s .tau { s with rd := .timedOut }
  /-- readloop.go:71, 77: the next read begins -/
  | again (s : State) (hr : s.rd = .busy) :
      Step p s .tau { s with rd := .reading (s.now + p.timeout), avail := s.avail.map fun _ => s.now }

end Verif.Idle
