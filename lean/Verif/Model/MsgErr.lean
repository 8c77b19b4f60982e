import Verif.Model.MsgHandler
import Verif.Model.Handshake
/-
Model of the texts of the errors about messages: /repo/src/p2p/{message.go, have.go, request.go, piece.go, bitfield.go}, /repo/src/bf/bitfield.go (`FromBytes`),
/repo/src/swarm/msghandler.go, /repo/src/torrent/info/info.go (`PieceLookup`) and /repo/src/torrent/fileio/fileio.go (`ReadPiece`, `WritePiece`, `PathError`).

The functions are those of Model/P2P.lean, Model/Bitfield.lean, Model/FileIO.lean and Model/MsgHandler.lean, with the errors that they return.
-/
set_option autoImplicit false

namespace Verif.MsgErr
open Verif.P2P Verif.Bf Verif.Bencode Verif.FileIO Verif.Files Verif.MsgHandler Verif.FS Verif.PieceTracker

/-- the errors of `Decode` -/
inductive DecErr where
  /-- message.go:141 -/
  | short (n : Nat)
  /-- message.go:157 -/
  | untyped (n : Nat)
  /-- message.go:167 -/
  | fixed (msglen : UInt32)
  /-- message.go:170 -/
  | incomplete (msglen : UInt32) (n : Nat)
  /-- message.go:214 -/
  | unknown (mtype : UInt8)
  /-- have.go:74 -/
  | have (n : Nat)
  /-- request.go:85 -/
  | request (n : Nat)
  /-- piece.go:82 -/
  | piece (n : Nat)
  /-- piece.go:85 -/
  | pieceShort (n : Nat)
  /-- bf/bitfield.go:45 -/
  | noBits
  /-- bf/bitfield.go:51 -/
  | bits (n min max given : Int)
  deriving DecidableEq, Repr

/-- the lines cited at `DecErr`; the constants are those of have.go:17, request.go:13, piece.go:12 -/
def DecErr.text : DecErr → Bytes
  | .short n => ascii "message length must be at least 4, got " ++ natDec n
  | .untyped n => ascii "non-keep-alive message length must be at least 5, got " ++ natDec n
  | .fixed l => ascii "invalid message, length for id [0-3] must be 1, got " ++ natDec l.toNat
  | .incomplete l n => ascii "length specified as " ++ natDec l.toNat ++ ascii ", payload length is " ++ natDec n
  | .unknown t => ascii "unknown message type " ++ natDec t.toNat
  | .have n => ascii "have message must have " ++ natDec 4 ++ ascii " byte payload, got " ++ natDec n
  | .request n => ascii "request message must have " ++ natDec 12 ++ ascii " byte payload, got " ++ natDec n
  | .piece n => ascii "piece message must have " ++ natDec 4 ++ ascii " byte payload, got " ++ natDec n
  | .pieceShort n => ascii "piece message payload must be at least " ++ natDec 8 ++ ascii " bytes, got " ++ natDec n
  | .noBits => ascii "bytes5 must have length greater than 5 bytes"
  | .bits n min max given => ascii "invalid number of bits specified for byte slice of len " ++ intDec n ++ ascii "\nmin " ++ intDec min ++ ascii ", max " ++ intDec max ++
      ascii ", given " ++ intDec given

/-- have.go:72-78 `DecodeMsgHave` -/
def DecodeMsgHaveT (payload : Bytes) : Res (Except DecErr Msg) :=
  if UInt32.ofNat payload.length ≠ 4 then .ok (.error (.have payload.length))
  else do
    let idx ← getU32 payload
    .ok (.ok (NewMsgHave idx))

/-- bf/bitfield.go:43-65 `FromBytes` -/
def FromBytesT (bytes5 : Bytes) (nbits : Int) : Res (Except DecErr Bitfield) :=
  if (bytes5.length : Int) ≤ 5 then .ok (.error .noBits)
  else if nbits < ((bytes5.length : Int) - 5 - 1) * 8 + 1 ∨ nbits > ((bytes5.length : Int) - 5) * 8 then
    .ok (.error (.bits bytes5.length (((bytes5.length : Int) - 5 - 1) * 8 + 1) (((bytes5.length : Int) - 5) * 8) nbits))
  else do
    let nset ← calcNset (bytes5.drop 5) nbits
    .ok (.ok { data5 := bytes5, nbytes := (bytes5.length : Int) - 5, nbits := nbits, nset := nset })

/-- bitfield.go:61-88 `DecodeMsgBitfield` -/
def DecodeMsgBitfieldT (fullmsg : Bytes) (msglen : UInt32) : Res (Except DecErr Msg) := do
  let dataCopy ← slice fullmsg 0 (4 + msglen).toNat
  let r ← FromBytesT dataCopy ((msglen - 1).toNat * 8)
  match r with
  | .error e => .ok (.error e)
  | .ok bf => .ok (.ok (.bitfield msglen bf))

/-- request.go:83-91 `DecodeMsgRequest` -/
def DecodeMsgRequestT (payload : Bytes) : Res (Except DecErr Msg) :=
  if UInt32.ofNat payload.length ≠ 12 then .ok (.error (.request payload.length))
  else do
    let index ← getU32 (← slice payload 0 4)
    let begin ← getU32 (← slice payload 4 8)
    let reqlen ← getU32 (← slice payload 8 12)
    .ok (.ok (NewMsgRequest index begin reqlen))

/-- piece.go:80-91 `DecodeMsgPiece` -/
def DecodeMsgPieceT (payload : Bytes) (length : UInt32) : Res (Except DecErr Msg) :=
  if UInt32.ofNat payload.length ≠ length then .ok (.error (.piece payload.length))
  else if UInt32.ofNat payload.length < 8 then .ok (.error (.pieceShort payload.length))
  else do
    let index ← getU32 (← slice payload 0 4)
    let begin ← getU32 (← slice payload 4 8)
    .ok (.ok (NewMsgPiece index begin (payload.drop 8)))

/-- message.go:198-200, 206-208 -/
def withReadT (n : Nat) : Res (Except DecErr Msg) → Res (Except DecErr Msg × Nat)
  | .ok r => .ok (r, n)
  | .err e => .err e
  | .panic => .panic
  | .timeout => .timeout

/-- message.go:201-205 -/
def withReadBitfieldT : Res (Except DecErr Msg) → Res (Except DecErr Msg × Nat)
  | .ok (.ok m) => .ok (.ok m, (4 + m.Length).toNat)
  | .ok (.error e) => .ok (.error e, 0)
  | .err e => .err e
  | .panic => .panic
  | .timeout => .timeout

/-- message.go:209-211 -/
def withReadPieceT : Res (Except DecErr Msg) → Res (Except DecErr Msg × Nat)
  | .ok (.ok m) => .ok (.ok m, (4 + m.Length).toNat)
  | .ok (.error _) => .panic
  | .err e => .err e
  | .panic => .panic
  | .timeout => .timeout

/-- message.go:161-222 -/
def decodeTypedT (data : Bytes) (msglen : UInt32) (mtype : UInt8) : Res (Except DecErr Msg × Nat) :=
  if mtype ≤ 3 ∧ msglen ≠ 1 then .ok (.error (.fixed msglen), data.length)
  else if UInt32.ofNat data.length < 4 + msglen then .ok (.error (.incomplete msglen data.length), data.length)
  else do
    let payload ← slice data 5 (5 + msglen - 1).toNat
    match mtype.toNat with
    | 0 => .ok (.ok .choke, 5)
    | 1 => .ok (.ok .unchoke, 5)
    | 2 => .ok (.ok .interested, 5)
    | 3 => .ok (.ok .notInterested, 5)
    | 4 => withReadT 9 (DecodeMsgHaveT payload)
    | 5 => withReadBitfieldT (DecodeMsgBitfieldT data msglen)
    | 6 => withReadT 17 (DecodeMsgRequestT payload)
    | 7 => withReadPieceT (DecodeMsgPieceT payload msglen)
    | _ => .ok (.error (.unknown mtype), data.length)

/-- message.go:126-223 `Decode`: the message or the error, and the number of bytes to skip -/
def DecodeT (data : Bytes) : Res (Except DecErr Msg × Nat) :=
  if data.length < 4 then .ok (.error (.short data.length), data.length)
  else do
    let msglen ← getU32 (data.take 4)
    if msglen = 0 then .ok (.ok .keepAlive, 4)
    else match data[4]? with
      | none => .ok (.error (.untyped data.length), data.length)
      | some mtype => decodeTypedT data msglen mtype

/-- the errors of handling a message; the text of an error of the operating system is `e` -/
inductive KillErr where
  /-- msghandler.go:42 -/
  | bitfield
  /-- info.go:286 -/
  | negative
  /-- info.go:290 -/
  | bounds
  /-- fileio.go:141 -/
  | path (p : Bytes)
  /-- fileio.go:138: `io.EOF` -/
  | eof
  /-- fileio.go:138, msghandler.go:69 -/
  | os (e : Bytes)
  deriving DecidableEq, Repr

/-- the lines cited at `KillErr`, and fileio.go:21-23 `PathError.Error` -/
def KillErr.text : KillErr → Bytes
  | .bitfield => ascii "invalid bitfield"
  | .negative => ascii "negative index"
  | .bounds => ascii "index out of bounds"
  | .path p => ascii "path [" ++ p ++ ascii "] does not exist"
  | .eof => ascii "EOF"
  | .os e => e

/-- info.go:283-294 `PieceLookup` -/
def PieceLookupT (ti : TorInfo) (index : Int) : Res (Except KillErr (List PieceLocation)) :=
  if index < 0 then .ok (.error .negative)
  else if index ≥ ti.numPieces then .ok (.error .bounds)
  else match ti.pm[index.toNat]? with
    | none => .panic
    | some locs => .ok (.ok locs)

/-- fileio.go:152-162: the loop of `ReadPiece`; `oserr` is what the operating system says about a file -/
def readLoopT (oserr : Bytes → Bytes) (fs : State) (fio : FileIO) : List PieceLocation → Nat → Bytes → Res (Except KillErr (Nat × Bytes))
  | [], offset, buf => .ok (.ok (offset, buf))
  | l :: ls, offset, buf =>
    if l.loc.readAmnt < 0 ∨ (offset : Int) + l.loc.readAmnt > buf.length then .panic
    else match fio.torInfo.flist[l.fidx]? with
      | none => .panic
      | some e =>
        if e.base.localPath ∈ fio.opened then
          match fs e.base.localPath with
          | none => .ok (.error (.os (oserr e.base.localPath)))
          | some c =>
            if l.loc.seekAmnt < 0 then .ok (.error (.os (oserr e.base.localPath)))
            else if c.length < l.loc.seekAmnt.toNat + l.loc.readAmnt.toNat ∧ 0 < l.loc.readAmnt then .ok (.error .eof)
            else readLoopT oserr fs fio ls (offset + l.loc.readAmnt.toNat)
              (overwrite buf offset ((c.drop l.loc.seekAmnt.toNat).take l.loc.readAmnt.toNat))
        else .ok (.error (.path e.base.localPath))

/-- fileio.go:145-163 `ReadPiece` -/
def ReadPieceT (oserr : Bytes → Bytes) (fs : State) (fio : FileIO) (index : Int) (buf : Bytes) : Res (Except KillErr (Nat × Bytes)) := do
  match ← PieceLookupT fio.torInfo index with
  | .error e => .ok (.error e)
  | .ok plocs => readLoopT oserr fs fio plocs 0 buf

/-- msghandler.go:35-56 `handleBitfield` -/
def handleBitfieldT (s : Swarm) (me : PH) (b : Bitfield) (st : St) : St × Res (Except KillErr Unit) :=
  if b.nbytes ≠ s.bf.nbytes then (st, .ok (.error .bitfield))
  else match b.SetNbits s.tor.numPieces with
    | .ok b' =>
      match RegisterBF st.ppt me b' with
      | .ok t => ({ st with peerBf := b', ppt := t }, .ok (.ok ()))
      | .err e => ({ st with peerBf := b' }, .err e)
      | .panic => ({ st with peerBf := b' }, .panic)
      | .timeout => ({ st with peerBf := b' }, .timeout)
    | .err e => (st, .err e)
    | .panic => (st, .panic)
    | .timeout => (st, .timeout)

/-- msghandler.go:58-76 `handleRequest`; `werr` is the text of the error of `RLIO.Write`, if there is one -/
def handleRequestT (oserr : Bytes → Bytes) (s : Swarm) (index begin reqlen : UInt32) (werr : Option Bytes) (st : St) : St × Res (Except KillErr Unit) :=
  match mayServe s index.toNat with
  | .ok true =>
    match ReadPieceT oserr s.fs s.fio index.toNat st.buf with
    | .ok (.ok (_, buf)) =>
      match answer buf index begin reqlen with
      | .ok m => match werr with
        | none => ({ st with buf := buf, out := st.out ++ [m] }, .ok (.ok ()))
        | some e => ({ st with buf := buf }, .ok (.error (.os e)))
      | .err e => ({ st with buf := buf }, .err e)
      | .panic => ({ st with buf := buf }, .panic)
      | .timeout => ({ st with buf := buf }, .timeout)
    | .ok (.error e) => (st, .ok (.error e))
    | .err e => (st, .err e)
    | .panic => (st, .panic)
    | .timeout => (st, .timeout)
  | .ok false => (st, .ok (.ok ()))
  | .err e => (st, .err e)
  | .panic => (st, .panic)
  | .timeout => (st, .timeout)

/-- msghandler.go:18-25: one message.  `werr n` is the text of the error of the `n`-th write, if there is one. -/
def handleOneT (oserr : Bytes → Bytes) (s : Swarm) (me : PH) (werr : Nat → Option Bytes) (m : Msg) (st : St) : St × Res (Except KillErr Unit) :=
  match m with
  | .request index begin reqlen => handleRequestT oserr s index begin reqlen (werr st.out.length) st
  | .bitfield _ b => handleBitfieldT s me b st
  | _ => (st, .ok (.ok ()))

/-- msghandler.go:17-32: the loop -/
def handleAllT (oserr : Bytes → Bytes) (s : Swarm) (me : PH) (werr : Nat → Option Bytes) : List Msg → St → St × Res (Except KillErr Unit)
  | [], st => (st, .ok (.ok ()))
  | m :: ms, st =>
    match handleOneT oserr s me werr m st with
    | (st', .ok (.ok _)) => handleAllT oserr s me werr ms st'
    | (st', r) => (st', r)

/-- msghandler.go:11-33 `handleMessage` -/
def handleMessageT (oserr : Bytes → Bytes) (fuel : Nat) (s : Swarm) (me : PH) (werr : Nat → Option Bytes) (buf : Bytes) (st : St) : St × Res (Except KillErr Unit) :=
  match DecodeAll fuel buf with
  | .ok dar => handleAllT oserr s me werr dar.msgs st
  | .err e => (st, .err e)
  | .panic => (st, .panic)
  | .timeout => (st, .timeout)

end Verif.MsgErr
