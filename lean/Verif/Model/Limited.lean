import Verif.Model.Peers
import Verif.Model.RateLimit
import Verif.Model.Utils
/-
Model of all peer connections together with the rate limiter that they share (/repo/src/swarm/swarm.go:27, 89-91, 123; /repo/src/swarm/msghandler.go:69;
/repo/src/io/ratelimit.go): Model/Peers.lean, in which an answer takes one step, is refined by Model/RateLimit.lean, in which a `Write` takes as many steps as the code has.

Goroutine `i` of the limiter is the recvLoop of connection `i`, which handles nothing else while it is in `Write`.  Only the answers to requests go through the limiter: handshakes, bitfields,
unchoke and keep-alive messages are written to the connection directly (peerhandler.go:58, 94, 103, 153, 301), and requestLoop never gets as far as line 256
(createReqMessages gives no message, or does not end).  A peer that does not read what we write makes the call of the writer take for ever: the step `write` does not happen then.
-/
set_option autoImplicit false

namespace Verif.Limited
open Verif.P2P Verif.FileIO Verif.MsgHandler Verif.Peers Verif.RateLimit

/-- the client, the write half of the limiter, and the limit for reading (`rRate`, ratelimit.go:15): it is stored by NewSwarm and read by
`RateLimitIO.Read` only (ratelimit.go:128), which is called nowhere -/
structure State where
  client : Client
  lim : RateLimit.State
  rRate : Int

/-- msghandler.go:61-69: what is handed to the limiter when a message is handled, if it comes to that; `buf` is `ph.buf` -/
def toWrite (s : MsgHandler.Swarm) (buf : Bytes) : Msg → Option Bytes
  | .request index begin reqlen =>
    match mayServe s index.toNat with
    | .ok true =>
      match ReadPiece s.fs s.fio index.toNat buf with
      | .ok (_, b) =>
        match answer b index begin reqlen with
        | .ok x => some x
        | _ => none
      | _ => none
    | _ => none
  | _ => none

/-- one step, with what can be seen of the limiter if it takes part -/
inductive Step (E : Env) (σ : State) : Option Label → State → Prop
  /-- the other goroutines: no recvLoop receives or handles anything.  (A panic when a message is handled is among these steps.) -/
  | others (client' : Client) (h : Peers.Step E σ.client client')
      (hq : ∀ (j : Nat) (c : Conn), σ.client.conns[j]? = some c → ∃ c', client'.conns[j]? = some c' ∧ c'.got = c.got ∧ c'.handled = c.handled ∧ c'.recv = c.recv) :
      Step E σ none { σ with client := client' }
  /-- peerhandler.go:211-212: a recvLoop that is not in `Write` receives a buffer -/
  | receive (i : Nat) (c c' : Conn) (client' : Client) (hi : σ.client.conns[i]? = some c) (hl : σ.lim.pcs i = .idle) (h : Peers.Step E σ.client client')
      (hi' : client'.conns[i]? = some c') (hg : c'.got ≠ c.got) : Step E σ none { σ with client := client' }
  /-- msghandler.go:17-30: a message is handled to which nothing is written -/
  | quiet (i : Nat) (c c' : Conn) (m : Msg) (ms : List Msg) (client' : Client) (hi : σ.client.conns[i]? = some c) (hl : σ.lim.pcs i = .idle)
      (ht : c.todo = m :: ms) (hw : toWrite E.s c.buf m = none) (h : Peers.Step E σ.client client') (hi' : client'.conns[i]? = some c')
      (hm : c'.handled ≠ c.handled ∨ c'.recv ≠ c.recv) : Step E σ none { σ with client := client' }
  /-- msghandler.go:69, ratelimit.go:85: `Write` is called -/
  | call (i : Nat) (c : Conn) (m : Msg) (ms : List Msg) (x : Bytes) (hc : σ.client.crashed = false) (hi : σ.client.conns[i]? = some c)
      (hr : c.recv = .running) (hl : σ.lim.pcs i = .idle) (ht : c.todo = m :: ms) (hw : toWrite E.s c.buf m = some x) :
      Step E σ (some .tau) { σ with lim := σ.lim.go i (.start x.length) }
  /-- a step inside of `Write` other than writing, or a tick -/
  | limiter (l : Label) (lim' : RateLimit.State) (hc : σ.client.crashed = false) (h : RateLimit.Step σ.lim l lim') (hn : ∀ t n, l ≠ .written t n)
      (hk : ∀ t, σ.lim.pcs t = .idle → lim'.pcs t = .idle) : Step E σ (some l) { σ with lim := lim' }
  /-- ratelimit.go:92 or 113: the answer is written, or writing it fails -/
  | write (i n : Nat) (c c' : Conn) (lim' : RateLimit.State) (client' : Client) (hi : σ.client.conns[i]? = some c) (hl : RateLimit.Step σ.lim (.written i n) lim')
      (h : Peers.Step E σ.client client') (hi' : client'.conns[i]? = some c') (hm : c'.handled ≠ c.handled ∨ c'.recv ≠ c.recv) :
      Step E σ (some (.written i n)) ⟨client', lim', σ.rRate⟩

/-- executions, with what can be seen of the limiter, oldest first -/
inductive Run (E : Env) : State → List Label → State → Prop
  | nil (σ : State) : Run E σ [] σ
  | other (σ σ' σ'' : State) (ls : List Label) (h : Run E σ ls σ') (hs : Step E σ' none σ'') : Run E σ ls σ''
  | snoc (σ σ' σ'' : State) (ls : List Label) (l : Label) (h : Run E σ ls σ') (hs : Step E σ' (some l) σ'') : Run E σ (ls ++ [l]) σ''

/-- swarm.go:84-91: the state after NewSwarm with the limits of the command line -/
def Initial (E : Env) (o : Utils.Opts) (σ : State) : Prop :=
  Peers.Initial E σ.client ∧ σ.lim = RateLimit.init (clamp o.uplim) ∧ σ.rRate = clamp o.dnlim

end Verif.Limited
