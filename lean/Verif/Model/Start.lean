import Verif.Model.Peers
import Verif.Model.Startup
/-
Model of Start (/repo/src/swarm/swarm.go:119-136) and of the part of runListener (swarm.go:138-156) that opens the port: the program from the end of NewSwarm
on, as a transition system around Model/Peers.lean.

Modelled: the loop over the peers of the tracker's answer, one goroutine for each of them, what becomes of its call, the port, and that nobody can connect to us before
the port is open.  What happens on the connections is Model/Peers.lean.
Not modelled here: the limiter's goroutine (swarm.go:122, Model/RateLimit.lean), errors of Accept (Model/Listener.lean); main.go:41-43 is in Model/Program.lean.
-/
set_option autoImplicit false

namespace Verif.Start
open Verif.Peers Verif.Peer Verif.Handshake Verif.Session Verif.Startup

/-- the program: the client with its connections (`client`), the peers that the loop has not come to yet (`rest`), those whose goroutine is in FromBootstrap
(`calling`), and the open port (`listening`).  `failed` (the peers whose call failed) and `ours` (for each connection, whether we made it) are records for the
statements only. -/
structure State where
  client : Client
  rest : List Info
  calling : List Info
  failed : List Info
  ours : List Bool
  listening : Option UInt16

/-- one step.  `port` is `opts.Port()`. -/
inductive Step (E : Env) (port : UInt16) (σ : State) : State → Prop
  /-- swarm.go:125-126, 133: the goroutine for the next peer is started -/
  | spawn (p : Info) (ps : List Info) (hc : σ.client.crashed = false) (h : σ.rest = p :: ps) :
      Step E port σ { σ with rest := ps, calling := σ.calling ++ [p] }
  /-- swarm.go:127-129: the peer cannot be reached, or the handshake cannot be written; the goroutine ends -/
  | fails (i : Nat) (p : Info) (dialOk writeOk : Bool) (out : List Bytes) (e : Err) (hc : σ.client.crashed = false) (hi : σ.calling[i]? = some p)
      (h : FromBootstrap dialOk writeOk p E.infohash E.ownId = (out, .err e)) :
      Step E port σ { σ with calling := σ.calling.eraseIdx i, failed := σ.failed ++ [p] }
  /-- swarm.go:127, 131: the connection is made, Loop begins -/
  | connected (i : Nat) (p p' : Info) (dialOk writeOk : Bool) (out first : List Bytes) (ph : Handler) (ptr : Nat) (ok : Bool) (hc : σ.client.crashed = false)
      (hi : σ.calling[i]? = some p) (h1 : FromBootstrap dialOk writeOk p E.infohash E.ownId = (out, .ok p')) (h2 : NewPeerHandler p' E.s.tor = .ok ph)
      (h3 : firstMessage ok = .ok first) :
      Step E port σ { σ with client := { σ.client with conns := σ.client.conns ++ [newConn p ptr ph (out ++ first)] }, calling := σ.calling.eraseIdx i, ours := σ.ours ++ [true] }
  /-- the same, with a panic -/
  | connectPanic (i : Nat) (p p' : Info) (dialOk writeOk : Bool) (out : List Bytes) (hc : σ.client.crashed = false)
      (hi : σ.calling[i]? = some p) (h1 : FromBootstrap dialOk writeOk p E.infohash E.ownId = (out, .ok p')) (h2 : NewPeerHandler p' E.s.tor = .panic) :
      Step E port σ { σ with client := { σ.client with crashed := true } }
  /-- swarm.go:141: the port is opened -/
  | listen (hc : σ.client.crashed = false) (h : σ.listening = none) : Step E port σ { σ with listening := some port }
  /-- swarm.go:141-144: the port cannot be opened -/
  | listenPanic (hc : σ.client.crashed = false) (h : σ.listening = none) : Step E port σ { σ with client := { σ.client with crashed := true } }
  /-- swarm.go:150-164: a peer connects -/
  | incoming (c : Incoming) (out first : List Bytes) (p : Info) (ph : Handler) (ptr : Nat) (ok : Bool) (hc : σ.client.crashed = false) (q : UInt16)
      (hl : σ.listening = some q) (h1 : FromIncoming E.v6 c E.infohash E.ownId E.s.bf = (out, .ok p))
      (h2 : NewPeerHandler p E.s.tor = .ok ph) (h3 : firstMessage ok = .ok first) :
      Step E port σ { σ with client := { σ.client with conns := σ.client.conns ++ [newConn p ptr ph (out ++ first)] }, ours := σ.ours ++ [false] }
  /-- the same, with a panic -/
  | incomingPanic (c : Incoming) (hc : σ.client.crashed = false) (q : UInt16) (hl : σ.listening = some q)
      (h : (FromIncoming E.v6 c E.infohash E.ownId E.s.bf).2 = .panic ∨
        ∃ p, (FromIncoming E.v6 c E.infohash E.ownId E.s.bf).2 = .ok p ∧ NewPeerHandler p E.s.tor = .panic) :
      Step E port σ { σ with client := { σ.client with crashed := true } }
  /-- a step of one of the connections.  (`Peers.Step` has panics of new connections too; they are not excluded here.) -/
  | work (client' : Client) (h : Peers.Step E σ.client client') (hn : client'.conns.length = σ.client.conns.length) :
      Step E port σ { σ with client := client' }

/-- swarm.go:21-34: the parts of the started swarm that the connections use -/
def env (w : World) (st : Started) : Env := ⟨st.core, st.tor.infohash, st.id, w.v6⟩

/-- swarm.go:119-125: the beginning of `Start` -/
def begin (st : Started) : State := ⟨⟨st.ppt, [], false⟩, st.peers, [], [], [], none⟩

end Verif.Start
