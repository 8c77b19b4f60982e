import Verif.Model.Go
/-
Model of /repo/src/io/readloop.go together with its only user, `recvLoop` of /repo/src/swarm/peerhandler.go:186-228, as a transition
system with two goroutines: the reader runs `Run`, the consumer runs `recvLoop`.

The connection is the environment: a read may return any data that fits into the buffer, an error, or both (as `io.Reader` allows); by the
deadline that `Run` sets it always returns.  While a read is in progress the contents of the buffer are arbitrary.  The order to stop
(`chKill`) and the outcome of `handleMessage` may come at any time; reporting an error to `Loop` (peerhandler.go:224) always succeeds here
(Model/PeerLoop.lean is about that).  Logging is left out.
-/
set_option autoImplicit false

namespace Verif.ReadLoop

/-- where the reader is; line numbers of readloop.go -/
inductive RPc where
  /-- before 71 -/
  | deadline
  /-- in the call of `conn.Read`, 77 -/
  | reading
  /-- before 82, with `n` bytes read -/
  | sendBuf (n : Nat)
  /-- in the select statement, 84-88 -/
  | select
  /-- before 73 or 79; whether the error is nil -/
  | sendErr (isNil : Bool)
  /-- `Run` has returned -/
  | ended
  deriving DecidableEq, Repr

/-- where the consumer is; line numbers of peerhandler.go -/
inductive CPc where
  /-- in the select statement, 212-221 -/
  | select
  /-- in `handleMessage`, 214, with the first `n` bytes of the buffer -/
  | handle (n : Nat)
  /-- before 215; whether `handleMessage` returned an error -/
  | ready (failed : Bool)
  /-- before 224 -/
  | report
  /-- in `Finish`, before readloop.go:55 -/
  | finish
  /-- in `Finish`, before readloop.go:58 -/
  | finishDeadline
  /-- `recvLoop` has returned -/
  | ended
  deriving DecidableEq, Repr

/-- The fields of readloop.go:14-23 and the goroutines.  `chBuf` and `chReady` have room for one value (28, 29); what is sent on `chBuf` is
the slice `buf[:n]` of the buffer itself, so only its length is kept.  `chErr` and `chDone` are unbuffered (30, 31). -/
structure State where
  buf : Bytes
  chBuf : Option Nat
  chReady : Bool
  reader : RPc
  cons : CPc

/-- what can be seen of a step -/
inductive Label where
  /-- `conn.Read` returned this data without error -/
  | read (c : Bytes)
  /-- `conn.Read` returned this data with an error, or no data -/
  | readErr (c : Bytes)
  /-- the consumer received a slice -/
  | deliver
  /-- the consumer, handling a message, sees this in its slice -/
  | look (c : Bytes)
  /-- the consumer called `Finish` -/
  | finish
  | tau
  deriving DecidableEq, Repr

/-- the start: readloop.go:25-35, both goroutines just started -/
def init (size : Nat) : State := ⟨List.replicate size 0, none, false, .deadline, .select⟩

/-- the steps -/
inductive Step : State → Label → State → Prop
  /-- 71: the deadline is set, the read starts and may write anything into the buffer -/
  | startRead (s : State) (b : Bytes) (hr : s.reader = .deadline) (hb : b.length = s.buf.length) :
      Step s .tau { s with buf := b, reader := .reading }
  /-- 71-72: setting the deadline fails -/
  | deadlineErr (s : State) (hr : s.reader = .deadline) : Step s .tau { s with reader := .sendErr false }
  /-- 77, 78 and 81: data and no error -/
  | readOk (s : State) (c : Bytes) (hr : s.reader = .reading) (h0 : 0 < c.length) (hc : c.length ≤ s.buf.length) :
      Step s (.read c) { s with buf := c ++ s.buf.drop c.length, reader := .sendBuf c.length }
  /-- 77-78: an error, perhaps with data -/
  | readFail (s : State) (c : Bytes) (hr : s.reader = .reading) (hc : c.length ≤ s.buf.length) :
      Step s (.readErr c) { s with buf := c ++ s.buf.drop c.length, reader := .sendErr false }
  /-- 77-78: no data and no error -/
  | readNone (s : State) (hr : s.reader = .reading) : Step s (.readErr []) { s with reader := .sendErr true }
  /-- 82: the slice goes into the channel if there is room -/
  | sendBuf (s : State) (n : Nat) (hr : s.reader = .sendBuf n) (hc : s.chBuf = none) : Step s .tau { s with chBuf := some n, reader := .select }
  /-- 85 -/
  | recvReady (s : State) (hr : s.reader = .select) (hc : s.chReady = true) : Step s .tau { s with chReady := false, reader := .deadline }
  /-- 86-87 and readloop.go:55, which meet: `Run` returns -/
  | recvDone (s : State) (hr : s.reader = .select) (hc : s.cons = .finish) : Step s .tau { s with reader := .ended, cons := .finishDeadline }
  /-- peerhandler.go:213 -/
  | take (s : State) (n : Nat) (hc : s.cons = .select) (hb : s.chBuf = some n) : Step s .deliver { s with chBuf := none, cons := .handle n }
  /-- 214: `handleMessage` looks at its slice -/
  | look (s : State) (n : Nat) (hc : s.cons = .handle n) : Step s (.look (s.buf.take n)) s
  /-- 214: `handleMessage` returns -/
  | handled (s : State) (n : Nat) (failed : Bool) (hc : s.cons = .handle n) : Step s .tau { s with cons := .ready failed }
  /-- 215 with readloop.go:45, if there is room; then 223 -/
  | ready (s : State) (failed : Bool) (hc : s.cons = .ready failed) (hr : s.chReady = false) :
      Step s .tau { s with chReady := true, cons := if failed then .report else .select }
  /-- 216-217 and readloop.go:73 or 79, which meet; the reader leaves its loop -/
  | takeErr (s : State) (isNil : Bool) (hc : s.cons = .select) (hr : s.reader = .sendErr isNil) :
      Step s .tau { s with reader := .ended, cons := if isNil then .ended else .report }
  /-- 218-219 -/
  | kill (s : State) (hc : s.cons = .select) : Step s .finish { s with cons := .finish }
  /-- readloop.go:58, then 220: the deadline of the connection is in the past; `recvLoop` returns -/
  | finishDeadline (s : State) (hc : s.cons = .finishDeadline) : Step s .tau { s with cons := .ended }
  /-- 224-225 -/
  | report (s : State) (hc : s.cons = .report) : Step s .tau { s with cons := .ended }

/-- schedules -/
inductive Run (s : State) : List Label → State → Prop
  | nil : Run s [] s
  | snoc (s' s'' : State) (ls : List Label) (l : Label) (h : Run s ls s') (hs : Step s' l s'') : Run s (ls ++ [l]) s''

/-- one step, whatever can be seen of it -/
def Next (s s' : State) : Prop := ∃ l, Step s l s'

end Verif.ReadLoop
