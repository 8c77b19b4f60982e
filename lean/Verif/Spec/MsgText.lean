import Verif.Spec.Wire
import Verif.Spec.Show
/-
What the lines of the text of a message are.
-/
set_option autoImplicit false

namespace Verif.MsgTextSpec
open Verif.Wire Verif.Bencode.Spec

/-- the bytes of a block as decimal numbers, with blanks between them and brackets around them -/
def block (bs : Bytes) : Bytes := ascii "[" ++ List.intercalate [32] (bs.map fun b => decNat b.toNat) ++ ascii "]"

/-- the kind of a message, and a line for each of its fields; the bits of a bitfield are missing -/
def textLines : Msg → List Bytes
  | .keepAlive => [ascii "Message: Keep Alive"]
  | .choke => [ascii "Message: Choke"]
  | .unchoke => [ascii "Message: Unchoke"]
  | .interested => [ascii "Message: Interested"]
  | .notInterested => [ascii "Message: Not Interested"]
  | .have i => [ascii "Message: Have", ascii "Index: " ++ decNat i.toNat]
  | .bitfield _ => [ascii "Message: Bitfield", []]
  | .request i b l => [ascii "Message: Request", ascii "Index: " ++ decNat i.toNat, ascii "Begin: " ++ decNat b.toNat, ascii "Req Len: " ++ decNat l.toNat]
  | .piece i b blk => [ascii "Message: Piece", ascii "Index: " ++ decNat i.toNat, ascii "Begin: " ++ decNat b.toNat, ascii "Block: " ++ block blk]

/-- messages that say which pieces somebody has -/
def IsBitfield : Msg → Prop
  | .bitfield _ => True
  | _ => False

end Verif.MsgTextSpec
