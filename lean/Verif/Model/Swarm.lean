import Verif.Model.FileIO
import Verif.Model.Bitfield
/-
Model of Validate, /repo/src/swarm/swarm.go:98-118.
-/
set_option autoImplicit false

namespace Verif.Swarm
open Verif.Files Verif.FS Verif.FileIO Verif.Bf

/-- swarm.go:103-115: the loop of `Validate`, from piece `i` on, `left` pieces to go; `buf` is reused -/
def validateLoop (H : Bytes → Bytes) (fs : State) (fio : FileIO) : Nat → Nat → Bytes → Bitfield → Res Bitfield
  | 0, _, _, b => .ok b
  | left + 1, i, buf, b => do
    let (n, buf') ← ReadPiece fs fio i buf
    let knownHash ← fio.torInfo.PieceHash i
    let b' ← b.Set i (knownHash == H (buf'.take n))
    validateLoop H fs fio left (i + 1) buf' b'

/-- swarm.go:98-118 `Validate`: the new value of the bitfield.  `make` panics for a negative piece length.  After an
error the bitfield is discarded by the only caller (swarm.go:66-70). -/
def Validate (H : Bytes → Bytes) (fs : State) (fio : FileIO) (b : Bitfield) : Res Bitfield :=
  if fio.torInfo.pieceLen < 0 then .panic
  else validateLoop H fs fio fio.torInfo.numPieces 0 (List.replicate fio.torInfo.pieceLen.toNat 0) b

end Verif.Swarm
