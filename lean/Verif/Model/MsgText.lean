import Verif.Model.P2P
import Verif.Model.Bencode
/-
Model of the methods String of the messages: /repo/src/p2p/message.go:76-82, keepalive.go:28-30, no_payload.go:71-93, have.go:62-67, bitfield.go:49-53,
request.go:71-78, piece.go:68-75.  Nothing in the program calls them; they are part of the interface `Message` (message.go:33-38).
-/
set_option autoImplicit false

namespace Verif.MsgText
open Verif.P2P Verif.Bencode

/-- the elements of a slice as the verb `%v` writes them -/
def elems : Bytes → Bytes
  | [] => []
  | [b] => natDec b.toNat
  | b :: bs => natDec b.toNat ++ 32 :: elems bs

/-- the verb `%v` of `fmt` for a slice of bytes (piece.go:73): the numbers in brackets, with blanks between them -/
def fmtBytes (b : Bytes) : Bytes := ascii "[" ++ elems b ++ ascii "]"

/-- message.go:76-82 `msgBase.String`: what a message without a method of its own would have; all have one -/
def baseString (m : Msg) : Bytes :=
  ascii "Base Message\n" ++ ascii "  Type: " ++ natDec m.Mtype.toNat ++ ascii "\n" ++ ascii "Length: " ++ natDec m.Length.toNat

/-- the methods `String` of the messages, see above -/
def mString : Msg → Bytes
  | .keepAlive => ascii "Message: Keep Alive"
  | .choke => ascii "Message: Choke"
  | .unchoke => ascii "Message: Unchoke"
  | .interested => ascii "Message: Interested"
  | .notInterested => ascii "Message: Not Interested"
  | .have index => ascii "Message: Have\n" ++ ascii "Index: " ++ natDec index.toNat
  | .bitfield _ _ => ascii "Message: Bitfield\n"
  | .request index begin reqlen =>
      ascii "Message: Request\n" ++ ascii "Index: " ++ natDec index.toNat ++ ascii "\n" ++ ascii "Begin: " ++ natDec begin.toNat ++ ascii "\n" ++
        ascii "Req Len: " ++ natDec reqlen.toNat
  | .piece _ index begin block =>
      ascii "Message: Piece\n" ++ ascii "Index: " ++ natDec index.toNat ++ ascii "\n" ++ ascii "Begin: " ++ natDec begin.toNat ++ ascii "\n" ++
        ascii "Block: " ++ fmtBytes block

end Verif.MsgText
