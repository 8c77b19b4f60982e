import Verif.Model.Swarm
import Verif.Model.Session
/-
The allocations of a piece's buffer in /repo/src/swarm/swarm.go:101 and /repo/src/swarm/peerhandler.go:125 when there is room for `mem` bytes only.
-/
set_option autoImplicit false

namespace Verif.Memory
open Verif.Files Verif.FileIO Verif.Bf Verif.Swarm Verif.Peer Verif.Session

/-- `make([]byte, n, n)`: a negative length panics, and so does a length above what is addressable ("makeslice: len out of range"); a length
above what the system gives ends the process ("out of memory", which cannot be recovered from).  Both are `panic` here. -/
def make (mem : Nat) (n : Int) : Res Bytes := if n < 0 ∨ (mem : Int) < n then .panic else .ok (List.replicate n.toNat 0)

/-- swarm.go:98-118 `Validate`, with room for `mem` bytes (nothing else in it takes memory that depends on the torrent) -/
def ValidateM (H : Bytes → Bytes) (mem : Nat) (fs : FS.State) (fio : FileIO) (b : Bitfield) : Res Bitfield := do
  let buf ← make mem fio.torInfo.pieceLen
  validateLoop H fs fio fio.torInfo.numPieces 0 buf b

/-- peerhandler.go:117-128 `NewPeerHandler`, with room for `mem` bytes; the bitfield is not counted -/
def NewPeerHandlerM (mem : Nat) (pInfo : Info) (ti : TorInfo) : Res Handler := do
  let buf ← make mem ti.pieceLen
  let b ← NewBitfield ti.numPieces
  .ok ⟨pInfo, ⟨false, false, false, false⟩, b, buf⟩

/-- the handlers for the peers named by the tracker and for those who connect: each has a buffer of its own (swarm.go:126-135, 149-165).  Every
buffer is taken from what the earlier ones have left. -/
def handlersM (mem : Nat) (ti : TorInfo) : List Info → Res (List Handler)
  | [] => .ok []
  | p :: ps => do
    let h ← NewPeerHandlerM mem p ti
    let hs ← handlersM (mem - ti.pieceLen.toNat) ti ps
    .ok (h :: hs)

end Verif.Memory
