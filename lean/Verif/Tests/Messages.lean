import Verif.Model.Bitfield
import Verif.Model.P2P
import Verif.Tests.Bencode
/-
TESTS, not proofs: the cases of /repo/src/bf/bitfield_test.go and /repo/src/p2p/*_test.go, run on the model by evaluation.
-/
set_option autoImplicit false

namespace Verif.Tests
open Verif.Bf Verif.P2P

/-- number of set bits of the bitfield that `FromBytes` returns -/
def nsetOf (bytes : Bytes) (nbits : Int) : Res Int := do
  let b ← FromBytes bytes nbits
  .ok b.nset

/-! bitfield_test.go -/

-- TestFromBytes
#guard isOk 2 (nsetOf [0, 0, 0, 0, 0, 0x0A] 8)
#guard isOk 4 (nsetOf [0, 0, 0, 0, 0, 0xFF] 4)
#guard isErr (nsetOf [0, 0, 0, 0, 0, 0x00] 9)
#guard isOk 8 (nsetOf [0, 0, 0, 0, 0, 0xAA, 0xAA] 16)
#guard isOk 9 (nsetOf [0, 0, 0, 0, 0, 0xFF, 0xFF] 9)
#guard isOk 9 (nsetOf [0, 0, 0, 0, 0, 0xFF, 0x8] 13)
#guard isErr (nsetOf [0, 0, 0, 0, 0, 0x00, 0x00] 8)
#guard isErr (nsetOf [0, 0, 0, 0, 0, 0x00, 0x00] 17)

/-- `Get` after `FromBytes` -/
def getOf (bytes : Bytes) (nbits idx : Int) : Res Bool := do
  let b ← FromBytes bytes nbits
  b.Get idx

-- TestGet
#guard [(0, true), (1, false), (2, true), (3, false), (8, true), (9, true), (10, true), (11, true)].all
  fun p => isOk p.2 (getOf [0, 0, 0, 0, 0, 0xAA, 0xF0] 16 p.1)

/-- `TestSet`: set, read back, change of `nset` -/
def setSteps : List (Int × Bool × Int) → Bitfield → Res Bool
  | [], _ => .ok true
  | (i, v, delta) :: rest, b => do
    let b' ← b.Set i v
    let got ← b'.Get i
    if got == v && b'.nset - b.nset == delta then setSteps rest b' else .ok false

-- TestSet
#guard isOk true (do
  let b ← FromBytes [0, 0, 0, 0, 0, 0x00, 0xFF] 16
  setSteps [(0, true, 1), (0, true, 0), (2, true, 1), (2, true, 0), (8, false, -1), (8, false, 0), (10, false, -1), (10, false, 0)] b)

/-! p2p/bitfield_test.go -/

/-- the payload of a decoded bitfield message -/
def bfOf (data : Bytes) : Res Bytes := do
  let r ← P2P.Decode data
  match r.msg with
  | some (.bitfield _ b) => .ok b.data
  | some _ => .panic
  | none => .err .other

-- TestBitfieldDecode
#guard isOk [0, 1, 2, 3] (bfOf [0, 0, 0, 5, 5, 0, 1, 2, 3])
#guard isErr (bfOf [0, 0, 0, 8, 5, 1, 2, 3, 4, 5, 6])

-- TestBitfieldEncode
#guard isOk [0, 0, 0, 11, 5, 1, 2, 3, 4, 5, 6, 7, 8, 9, 10] (do
  let m ← DecodeMsgBitfield [0, 0, 0, 11, 5, 1, 2, 3, 4, 5, 6, 7, 8, 9, 10] 11
  m.Encode)

/-! have_test.go -/

/-- the index of a decoded have message -/
def haveOf (data : Bytes) : Res UInt32 := do
  let r ← P2P.Decode data
  match r.msg with
  | some (.have i) => .ok i
  | some _ => .panic
  | none => .err .other

-- TestHaveDecode
#guard isOk 12 (haveOf [0, 0, 0, 5, 4, 0, 0, 0, 12])
#guard isOk 57005 (haveOf [0, 0, 0, 5, 4, 0x00, 0x00, 0xDE, 0xAD])
#guard isOk 11189196 (haveOf [0, 0, 0, 5, 4, 0x00, 0xAA, 0xBB, 0xCC])
#guard isOk 666420666 (haveOf [0, 0, 0, 5, 4, 0x27, 0xB8, 0xC5, 0xBA])
#guard isErr (haveOf [0, 0, 0, 8, 4, 0, 0, 0, 12])
#guard isErr (haveOf [0, 0, 0, 8, 4, 0, 0, 0, 12, 66, 66, 66, 66])

-- TestHaveEncode
#guard isOk [0, 0, 0, 5, 4, 0, 0, 0, 12] (NewMsgHave 12).Encode
#guard isOk [0, 0, 0, 5, 4, 0x00, 0x00, 0xDE, 0xAD] (NewMsgHave 57005).Encode
#guard isOk [0, 0, 0, 5, 4, 0x00, 0xAA, 0xBB, 0xCC] (NewMsgHave 11189196).Encode
#guard isOk [0, 0, 0, 5, 4, 0x27, 0xB8, 0xC5, 0xBA] (NewMsgHave 666420666).Encode

/-! keepalive_test.go, no_payload_test.go -/

/-- type and length of a decoded message -/
def kindOf (data : Bytes) : Res (UInt8 × UInt32) := do
  let r ← P2P.Decode data
  match r.msg with
  | some m => .ok (m.Mtype, m.Length)
  | none => .err .other

-- TestKeepAliveDecode, TestKeepAliveEncode
#guard isOk (Msg.keepAlive.Mtype, 0) (kindOf [0, 0, 0, 0])
#guard isOk [0, 0, 0, 0] Msg.keepAlive.Encode

-- TestNoPayloadDecode
#guard isOk (0, 1) (kindOf [0, 0, 0, 1, 0])
#guard isOk (1, 1) (kindOf [0, 0, 0, 1, 1])
#guard isOk (2, 1) (kindOf [0, 0, 0, 1, 2])
#guard isOk (3, 1) (kindOf [0, 0, 0, 1, 3])
#guard isErr (kindOf [0, 0, 0, 3, 0])

-- TestNoPayloadEncode
#guard isOk [0, 0, 0, 1, 0] Msg.choke.Encode
#guard isOk [0, 0, 0, 1, 1] Msg.unchoke.Encode
#guard isOk [0, 0, 0, 1, 2] Msg.interested.Encode
#guard isOk [0, 0, 0, 1, 3] Msg.notInterested.Encode

/-! piece_test.go -/

-- TestMsgPiece_Encode
#guard isOk [0, 0, 0, 19, 7, 0, 0, 0, 0, 0, 0, 0, 20, 0, 1, 2, 3, 4, 5, 6, 7, 8, 9] (NewMsgPiece 0 20 [0, 1, 2, 3, 4, 5, 6, 7, 8, 9]).Encode

/-! message_test.go -/

/-- types of the messages and number of bytes read -/
def allOf (data : Bytes) : Res (List UInt8 × Nat) := do
  let r ← DecodeAll 100 data
  .ok (r.msgs.map Msg.Mtype, r.read)

-- TestDecodeAll
#guard isOk ([Msg.keepAlive.Mtype, 0, 1, 4], 23)
  (allOf [0, 0, 0, 0, 0, 0, 0, 1, 0, 0, 0, 0, 1, 1, 0, 0, 0, 5, 4, 0, 0, 0, 0xf])
#guard isOk ([Msg.keepAlive.Mtype, 0, 1], 14)
  (allOf [0, 0, 0, 0, 0, 0, 0, 1, 0, 0, 0, 0, 1, 1, 0, 0, 0, 1, 0xDD, 0, 0, 0, 5, 4, 0, 0, 0, 0xf])
#guard isOk ([Msg.keepAlive.Mtype, 0, 1, 4, Msg.keepAlive.Mtype], 27)
  (allOf [0, 0, 0, 0, 0, 0, 0, 1, 0, 0, 0, 0, 1, 1, 0, 0, 0, 7, 4, 0, 0, 0, 0xf, 0, 0, 0, 5, 4, 0, 0, 0, 0xf, 0, 0, 0, 0])

/-- the encodings of the messages of a buffer -/
def reencode (data : Bytes) : Res (List Bytes) := do
  let r ← DecodeAll 100 data
  r.msgs.mapM Msg.Encode

-- TestBitfieldMem (byte lists are values in the model: that the copy in DecodeMsgBitfield is needed cannot show here)
#guard isOk [[0, 0, 0, 2, 5, 20], [0, 0, 0, 2, 5, 40]] (reencode [0, 0, 0, 2, 5, 20, 0, 0, 0, 2, 5, 40])
#guard isOk [[0, 0, 0, 2, 5, 50], [0, 0, 0, 2, 5, 70]] (reencode [0, 0, 0, 2, 5, 50, 0, 0, 0, 2, 5, 70])

end Verif.Tests
