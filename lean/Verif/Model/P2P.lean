import Verif.Model.Bitfield
/-
Model of /repo/src/p2p: message.go, keepalive.go, no_payload.go, have.go, bitfield.go, request.go, piece.go.

`String` methods (nothing calls them) are in Model/MsgText.lean, error texts in Model/MsgErr.lean, log output in Model/Log.lean.
-/
set_option autoImplicit false

namespace Verif.P2P
open Verif.Bf

/-- `binary.BigEndian.PutUint32` (Go standard library), used in message.go:70, 92, have.go:58,
request.go:65-67, piece.go:62-63: the four bytes written -/
def putU32 (v : UInt32) : Bytes :=
  [(v >>> 24).toUInt8, (v >>> 16).toUInt8, (v >>> 8).toUInt8, v.toUInt8]

/-- `binary.BigEndian.Uint32` (Go standard library), used in message.go:145, have.go:76,
request.go:87-89, piece.go:87-88: index panic for fewer than four bytes -/
def getU32 : Bytes → Res UInt32
  | b0 :: b1 :: b2 :: b3 :: _ =>
    .ok (b3.toUInt32 ||| (b2.toUInt32 <<< 8) ||| (b1.toUInt32 <<< 16) ||| (b0.toUInt32 <<< 24))
  | _ => .panic

/-- `s[lo:hi]` on a slice whose capacity is not larger than its length (or where `hi` is known not to
exceed the length) -/
def slice (s : Bytes) (lo hi : Nat) : Res Bytes :=
  if lo ≤ hi ∧ hi ≤ s.length then .ok ((s.take hi).drop lo) else .panic

/-- The message structs: message.go:52-55 (`msgBase`), keepalive.go:11-22, no_payload.go:27-30,
have.go:27-30, bitfield.go:15-18, request.go:23-28, piece.go:19-24.  The fields `length` and `mtype` of
`msgBase` are constants for most of them (see `Length`, `Mtype`); `length` is kept as a field where the
constructor computes it. -/
inductive Msg where
  | keepAlive
  | choke
  | unchoke
  | interested
  | notInterested
  | have (index : UInt32)
  | bitfield (length : UInt32) (bf : Bitfield)
  | request (index begin reqlen : UInt32)
  | piece (length : UInt32) (index begin : UInt32) (block : Bytes)
  deriving DecidableEq, Repr

/-- bitfield.go:23-31 `NewMsgBitfield` -/
def NewMsgBitfield (bf : Bitfield) : Msg := .bitfield (UInt32.ofInt (1 + bf.nbytes)) bf

/-- have.go:35-43 `NewMsgHave` -/
def NewMsgHave (idx : UInt32) : Msg := .have idx

/-- request.go:33-43 `NewMsgRequest` -/
def NewMsgRequest (index begin reqlen : UInt32) : Msg := .request index begin reqlen

/-- piece.go:29-39 `NewMsgPiece` -/
def NewMsgPiece (index begin : UInt32) (block : Bytes) : Msg :=
  .piece (UInt32.ofNat (1 + 8 + block.length)) index begin block

namespace Msg

/-- message.go:60-62 `Length`, with the constants of keepalive.go:19, no_payload.go:38-65, have.go:18,
request.go:14 -/
def Length : Msg → UInt32
  | .keepAlive => 0
  | .choke | .unchoke | .interested | .notInterested => 1
  | .have _ => 5
  | .bitfield l _ => l
  | .request _ _ _ => 13
  | .piece l _ _ _ => l

/-- message.go:64-66 `Mtype`, with the constants of message.go:9-20 -/
def Mtype : Msg → UInt8
  | .keepAlive => 255
  | .choke => 0
  | .unchoke => 1
  | .interested => 2
  | .notInterested => 3
  | .have _ => 4
  | .bitfield _ _ => 5
  | .request _ _ _ => 6
  | .piece _ _ _ _ => 7

/-- message.go:68-74 `msgBase.Encode` -/
def baseEncode (m : Msg) : Bytes := putU32 m.Length ++ [m.Mtype]

/-- message.go:90-94 `fillBase`: overwrite the first five bytes; index panic on a shorter slice -/
def fillBase (m : Msg) (buf : Bytes) : Res Bytes :=
  if buf.length < 5 then .panic else .ok (putU32 m.Length ++ [m.Mtype] ++ buf.drop 5)

/-- `PutUint32(pl[at:], v)` on a buffer: index panic if it does not fit -/
def putAt (pl : Bytes) (at_ : Nat) (v : UInt32) : Res Bytes :=
  if at_ + 4 ≤ pl.length then .ok (pl.take at_ ++ putU32 v ++ pl.drop (at_ + 4)) else .panic

/-- `Encode`: message.go:68-74 for the messages without payload, keepalive.go:24-26, have.go:55-60,
bitfield.go:43-47, request.go:63-69, piece.go:59-66 -/
def Encode (m : Msg) : Res Bytes :=
  match m with
  | .keepAlive => .ok [0, 0, 0, 0]
  | .choke | .unchoke | .interested | .notInterested => .ok m.baseEncode
  | .have index => do
    let pl ← m.fillBase (List.replicate 9 0)
    putAt pl 5 index
  | .bitfield _ bf => m.fillBase bf.data5
  | .request index begin reqlen => do
    let pl := m.baseEncode
    let pl ← putAt pl 0 index
    let pl ← putAt pl 0 begin
    putAt pl 0 reqlen
  | .piece _ index begin block => do
    let pl ← m.fillBase (List.replicate 13 0)
    let pl ← putAt pl 5 index
    let pl ← putAt pl 9 begin
    .ok (pl ++ block)

end Msg

/-- bitfield.go:43-47: `MsgBitfield.Encode` writes the header into the bitfield's own buffer `data5`
and returns that buffer; this is the bitfield after the call -/
def bitfieldAfterEncode (l : UInt32) (bf : Bitfield) : Res Bitfield := do
  let d ← (Msg.bitfield l bf).Encode
  .ok { bf with data5 := d }

/-- have.go:72-78 `DecodeMsgHave` -/
def DecodeMsgHave (payload : Bytes) : Res Msg :=
  if UInt32.ofNat payload.length ≠ 4 then .err .other
  else do
    let idx ← getU32 payload
    .ok (NewMsgHave idx)

/-- bitfield.go:61-88 `DecodeMsgBitfield` -/
def DecodeMsgBitfield (fullmsg : Bytes) (msglen : UInt32) : Res Msg := do
  let dataCopy ← slice fullmsg 0 (4 + msglen).toNat
  let bf ← FromBytes dataCopy ((msglen - 1).toNat * 8)
  .ok (.bitfield msglen bf)

/-- request.go:83-91 `DecodeMsgRequest` -/
def DecodeMsgRequest (payload : Bytes) : Res Msg :=
  if UInt32.ofNat payload.length ≠ 12 then .err .other
  else do
    let index ← getU32 (← slice payload 0 4)
    let begin ← getU32 (← slice payload 4 8)
    let reqlen ← getU32 (← slice payload 8 12)
    .ok (NewMsgRequest index begin reqlen)

/-- piece.go:80-91 `DecodeMsgPiece` -/
def DecodeMsgPiece (payload : Bytes) (length : UInt32) : Res Msg :=
  if UInt32.ofNat payload.length ≠ length then .err .other
  else if UInt32.ofNat payload.length < 8 then .err .other
  else do
    let index ← getU32 (← slice payload 0 4)
    let begin ← getU32 (← slice payload 4 8)
    .ok (NewMsgPiece index begin (payload.drop 8))

/-- message.go:47-50 together with the error result of `Decode`: `msg = none` stands for "the error is
not nil" (no caller looks at `Msg` in that case), `read` is the field `Read` -/
structure DecodeResult where
  msg : Option Msg
  read : Nat
  deriving DecidableEq, Repr

/-- the pair `(msg, err)` and the count `n` set for a message whose decoder returns an error without
touching `n`: message.go:198-200, 206-208 -/
def withRead (n : Nat) : Res Msg → Res DecodeResult
  | .ok m => .ok ⟨some m, n⟩
  | .err _ => .ok ⟨none, n⟩
  | .panic => .panic
  | .timeout => .timeout

/-- message.go:201-205: the bitfield case; `n` keeps its zero value when decoding fails -/
def withReadBitfield : Res Msg → Res DecodeResult
  | .ok m => .ok ⟨some m, (4 + m.Length).toNat⟩
  | .err _ => .ok ⟨none, 0⟩
  | .panic => .panic
  | .timeout => .timeout

/-- message.go:209-211: the piece case; `msg.Length()` is called even when decoding has failed, on a nil
`*MsgPiece`, which is a nil pointer dereference -/
def withReadPiece : Res Msg → Res DecodeResult
  | .ok m => .ok ⟨some m, (4 + m.Length).toNat⟩
  | .err _ => .panic
  | .panic => .panic
  | .timeout => .timeout

/-- message.go:161-222: the part of `Decode` after the message type has been read -/
def decodeTyped (data : Bytes) (msglen : UInt32) (mtype : UInt8) : Res DecodeResult :=
  if mtype ≤ 3 ∧ msglen ≠ 1 then .ok ⟨none, data.length⟩
  else if UInt32.ofNat data.length < 4 + msglen then .ok ⟨none, data.length⟩
  else do
    let payload ← slice data 5 (5 + msglen - 1).toNat
    match mtype.toNat with
    | 0 => .ok ⟨some .choke, 5⟩
    | 1 => .ok ⟨some .unchoke, 5⟩
    | 2 => .ok ⟨some .interested, 5⟩
    | 3 => .ok ⟨some .notInterested, 5⟩
    | 4 => withRead 9 (DecodeMsgHave payload)
    | 5 => withReadBitfield (DecodeMsgBitfield data msglen)
    | 6 => withRead 17 (DecodeMsgRequest payload)
    | 7 => withReadPiece (DecodeMsgPiece payload msglen)
    | _ => .ok ⟨none, data.length⟩

/-- message.go:126-223 `Decode` -/
def Decode (data : Bytes) : Res DecodeResult :=
  if data.length < 4 then .ok ⟨none, data.length⟩
  else do
    let msglen ← getU32 (data.take 4)
    if msglen = 0 then .ok ⟨some .keepAlive, 4⟩
    else match data[4]? with
      | none => .ok ⟨none, data.length⟩
      | some mtype => decodeTyped data msglen mtype

/-- message.go:40-43 -/
structure DecodeAllResult where
  msgs : List Msg
  read : Nat
  deriving DecidableEq, Repr

/-- message.go:105-115: the loop of `DecodeAll`.  The argument is `data[idx:]` instead of `idx`; the
first number is fuel. -/
def decodeAllLoop : Nat → Bytes → List Msg → Nat → Res DecodeAllResult
  | 0, _, _, _ => .timeout
  | fuel + 1, data, msgs, read =>
    if data.length = 0 then .ok ⟨msgs, read⟩
    else do
      let dr ← Decode data
      match dr.msg with
      | some m => decodeAllLoop fuel (data.drop dr.read) (msgs ++ [m]) (read + dr.read)
      | none => decodeAllLoop fuel (data.drop dr.read) msgs read

/-- message.go:99-121 `DecodeAll`, stopped after at most `fuel` iterations -/
def DecodeAll (fuel : Nat) (data : Bytes) : Res DecodeAllResult := decodeAllLoop fuel data [] 0

end Verif.P2P
