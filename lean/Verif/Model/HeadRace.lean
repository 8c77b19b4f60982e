import Verif.Model.P2P
import Verif.Spec.Lts
/-
Model of the goroutines of incoming connections that send our bitfield at the same time: /repo/src/swarm/peerhandler.go:105-106 with p2p/bitfield.go:43-47 and
p2p/message.go:90-94.  `Encode` writes the head of the message into the first five bytes of the bitfield that all of them share, and `conn.Write` reads all bytes of it.
Every byte is accessed by itself, in the order in which the code does it; memory is sequentially consistent.
-/
set_option autoImplicit false

namespace Verif.HeadRace
open Verif.P2P Verif.Bf

/-- a goroutine: how many bytes it has accessed (the first five accesses write), and the bytes that it has read, which are sent -/
structure Sender where
  pos : Nat
  out : Bytes
  deriving DecidableEq, Repr

/-- the shared bytes (`data5`), and the goroutines -/
structure State where
  mem : Bytes
  senders : List Sender
  deriving DecidableEq, Repr

/-- message.go:92-93: the five bytes that are written for the message of bitfield.go:23-31 -/
def head (b : Bitfield) : Bytes := (NewMsgBitfield b).baseEncode

/-- one step -/
inductive Step (b : Bitfield) (σ : State) : State → Prop
  /-- swarm.go:156: another connection comes in -/
  | enter : Step b σ { σ with senders := σ.senders ++ [⟨0, []⟩] }
  /-- message.go:92-93 -/
  | write (i p : Nat) (out : Bytes) (c : UInt8) (h : σ.senders[i]? = some ⟨p, out⟩) (hp : p < 5) (hc : (head b)[p]? = some c) :
      Step b σ ⟨σ.mem.set p c, σ.senders.set i ⟨p + 1, out⟩⟩
  /-- peerhandler.go:106 -/
  | read (i q : Nat) (out : Bytes) (c : UInt8) (h : σ.senders[i]? = some ⟨5 + q, out⟩) (hc : σ.mem[q]? = some c) :
      Step b σ ⟨σ.mem, σ.senders.set i ⟨5 + q + 1, out ++ [c]⟩⟩

end Verif.HeadRace
