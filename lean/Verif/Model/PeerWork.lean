import Verif.Model.Work
import Verif.Model.MsgHandler
/-
The work of taking apart and handling what a peer sends: /repo/src/p2p/message.go, /repo/src/bf/bitfield.go, /repo/src/swarm/msghandler.go and /repo/src/swarm/piecetracker.go.  Counted are
one for every call of `Decode`, every byte that it looks at or copies, every bit that is tested, every piece that is looked up and every node of a list that is visited.

Not counted: what `make` and `append` cost (amortised constant for every element), the accesses to the maps of peers of a piece (constant for each), and what is read from the files to answer
requests (Model/ReadWork.lean).
-/
set_option autoImplicit false

namespace Verif.PeerWork
open Verif.Work Verif.P2P Verif.Bf Verif.DS Verif.PieceTracker Verif.MsgHandler

/-- bf/bitfield.go:68-101 `calcNset`: the bits that are tested -/
def calcNsetW (data : Bytes) (nbits : Int) : W Int :=
  let rem := nbits.tmod 8
  let last : Int := (data.length : Int) - 1 + (if rem = 0 then 1 else 0)
  let full : Int := ((data.take last.toNat).map fun b => countByte b 8).sum
  let tested : Nat := ((data.take last.toNat).map fun _ => 8).sum
  if 0 < rem then
    if last < 0 then (.panic, tested)
    else match data[last.toNat]? with
      | none => (.panic, tested)
      | some b => (.ok (full + countByte b rem.toNat), tested + rem.toNat)
  else (.ok full, tested)

/-- bf/bitfield.go:42-64 `FromBytes` -/
def FromBytesW (bytes5 : Bytes) (nbits : Int) : W Bitfield :=
  let lenbytes : Int := bytes5.length
  if lenbytes ≤ 5 then (.err .other, 0)
  else if nbits < (lenbytes - 5 - 1) * 8 + 1 ∨ nbits > (lenbytes - 5) * 8 then (.err .other, 0)
  else (calcNsetW (bytes5.drop 5) nbits).bind fun nset =>
    (.ok { data5 := bytes5, nbytes := lenbytes - 5, nbits := nbits, nset := nset }, 0)

/-- p2p/bitfield.go:61-88 `DecodeMsgBitfield`: the message is copied -/
def DecodeMsgBitfieldW (fullmsg : Bytes) (msglen : UInt32) : W Msg :=
  match slice fullmsg 0 (4 + msglen).toNat with
  | .ok dataCopy => W.bind (.ok (), dataCopy.length) fun _ => (FromBytesW dataCopy ((msglen - 1).toNat * 8)).bind fun bf => (.ok (.bitfield msglen bf), 0)
  | .err e => (.err e, 0)
  | .panic => (.panic, 0)
  | .timeout => (.timeout, 0)

/-- message.go:161-222: the part of `Decode` after the message type has been read.  Payloads are not copied; of those of `have`, `request` and `piece` messages 4, 12 and 8 bytes are
looked at. -/
def decodeTypedW (data : Bytes) (msglen : UInt32) (mtype : UInt8) : W DecodeResult :=
  if mtype ≤ 3 ∧ msglen ≠ 1 then (.ok ⟨none, data.length⟩, 0)
  else if UInt32.ofNat data.length < 4 + msglen then (.ok ⟨none, data.length⟩, 0)
  else match slice data 5 (5 + msglen - 1).toNat with
    | .ok payload =>
      match mtype.toNat with
      | 0 => (.ok ⟨some .choke, 5⟩, 0)
      | 1 => (.ok ⟨some .unchoke, 5⟩, 0)
      | 2 => (.ok ⟨some .interested, 5⟩, 0)
      | 3 => (.ok ⟨some .notInterested, 5⟩, 0)
      | 4 => (withRead 9 (DecodeMsgHave payload), 4)
      | 5 => (withReadBitfield (DecodeMsgBitfieldW data msglen).1, (DecodeMsgBitfieldW data msglen).2)
      | 6 => (withRead 17 (DecodeMsgRequest payload), 12)
      | 7 => (withReadPiece (DecodeMsgPiece payload msglen), 8)
      | _ => (.ok ⟨none, data.length⟩, 0)
    | .err e => (.err e, 0)
    | .panic => (.panic, 0)
    | .timeout => (.timeout, 0)

/-- message.go:126-223 `Decode`: the call, the four bytes of the length, the type -/
def DecodeW (data : Bytes) : W DecodeResult :=
  if data.length < 4 then (.ok ⟨none, data.length⟩, 1)
  else match getU32 (data.take 4) with
    | .ok msglen =>
      if msglen = 0 then (.ok ⟨some .keepAlive, 4⟩, 5)
      else match data[4]? with
        | none => (.ok ⟨none, data.length⟩, 5)
        | some mtype => W.bind (.ok (), 6) fun _ => decodeTypedW data msglen mtype
    | .err e => (.err e, 1)
    | .panic => (.panic, 1)
    | .timeout => (.timeout, 1)

/-- message.go:105-115: the loop of `DecodeAll` -/
def decodeAllLoopW : Nat → Bytes → List Msg → Nat → W DecodeAllResult
  | 0, _, _, _ => (.timeout, 0)
  | fuel + 1, data, msgs, read =>
    if data.length = 0 then (.ok ⟨msgs, read⟩, 0)
    else (DecodeW data).bind fun dr =>
      match dr.msg with
      | some m => decodeAllLoopW fuel (data.drop dr.read) (msgs ++ [m]) (read + dr.read)
      | none => decodeAllLoopW fuel (data.drop dr.read) msgs read

/-- message.go:99-121 `DecodeAll` -/
def DecodeAllW (fuel : Nat) (data : Bytes) : W DecodeAllResult := decodeAllLoopW fuel data [] 0

/-- bf/bitfield.go:164-173 `SetNbits` -/
def SetNbitsW (b : Bitfield) (nbits : Int) : W Bitfield :=
  if nbits < (b.nbytes - 1) * 8 ∨ nbits > b.nbytes * 8 then (.panic, 0)
  else (calcNsetW b.data nbits).bind fun nset => (.ok { b with nbits := nbits, nset := nset }, 0)

/-- piecetracker.go:80-84: the loop of `RegisterBF`: each bit is tested, and if it is set the piece is looked up (and moved from one list to the next, which takes a fixed number of
accesses: utils/ds/linklist.go:46-81) -/
def registerBFLoopW (b : Bitfield) (whom : PH) : Nat → Nat → Tracker → W Tracker
  | 0, _, t => (.ok t, 0)
  | left + 1, index, t =>
    W.bind (b.Get index, 1) fun has =>
      W.bind (if has then (register t whom (index % 2 ^ 32), 1) else (.ok t, 0)) fun t =>
        registerBFLoopW b whom left (index + 1) t

/-- piecetracker.go:76-85 `RegisterBF` -/
def RegisterBFW (t : Tracker) (whom : PH) (b : Bitfield) : W Tracker := registerBFLoopW b whom b.nbits.toNat 0 t

/-- msghandler.go:35-56 `handleBitfield` -/
def handleBitfieldW (s : Swarm) (me : PH) (b : Bitfield) (st : St) : (St × Res Unit) × Nat :=
  if b.nbytes ≠ s.bf.nbytes then ((st, .err .other), 0)
  else match SetNbitsW b s.tor.numPieces with
    | (.ok b', n) =>
      match RegisterBFW st.ppt me b' with
      | (.ok t, k) => (({ st with peerBf := b', ppt := t }, .ok ()), n + k)
      | (.err e, k) => (({ st with peerBf := b' }, .err e), n + k)
      | (.panic, k) => (({ st with peerBf := b' }, .panic), n + k)
      | (.timeout, k) => (({ st with peerBf := b' }, .timeout), n + k)
    | (.err e, n) => ((st, .err e), n)
    | (.panic, n) => ((st, .panic), n)
    | (.timeout, n) => ((st, .timeout), n)

/-- msghandler.go:18-25: one message; a request is looked up in our bitfield (62), what is read for it is in Model/ReadWork.lean -/
def handleOneW (s : Swarm) (me : PH) (wok : Nat → Bool) (m : Msg) (st : St) : (St × Res Unit) × Nat :=
  match m with
  | .request index begin reqlen => (handleRequest s index begin reqlen (wok st.out.length) st, 1)
  | .bitfield _ b => handleBitfieldW s me b st
  | _ => ((st, .ok ()), 0)

/-- msghandler.go:17-32: the loop -/
def handleAllW (s : Swarm) (me : PH) (wok : Nat → Bool) : List Msg → St → (St × Res Unit) × Nat
  | [], st => ((st, .ok ()), 0)
  | m :: ms, st =>
    match handleOneW s me wok m st with
    | ((st', .ok _), n) => ((handleAllW s me wok ms st').1, 1 + n + (handleAllW s me wok ms st').2)
    | ((st', r), n) => ((st', r), 1 + n)

/-- msghandler.go:11-33 `handleMessage` -/
def handleMessageW (fuel : Nat) (s : Swarm) (me : PH) (wok : Nat → Bool) (buf : Bytes) (st : St) : (St × Res Unit) × Nat :=
  match DecodeAllW fuel buf with
  | (.ok dar, n) => ((handleAllW s me wok dar.msgs st).1, n + (handleAllW s me wok dar.msgs st).2)
  | (.err e, n) => ((st, .err e), n)
  | (.panic, n) => ((st, .panic), n)
  | (.timeout, n) => ((st, .timeout), n)

/-- piecetracker.go:156-170: the search in one bucket; every node that is visited -/
def scanListW (h : Heap Piece) (own : Bitfield) (whom : PH) : Nat → Option Nat → W (Option Nat)
  | _, none => (.ok none, 0)
  | 0, some _ => (.timeout, 0)
  | fuel + 1, some a =>
    W.bind (deref h (some a), 1) fun nd =>
      W.bind (own.Get nd.data.index, 0) fun have' =>
        if !have' && (!nd.data.active && nd.data.peerSet.Has PH.key whom) then (.ok (some nd.data.index), 0)
        else scanListW h own whom fuel nd.next

/-- piecetracker.go:154-171: the search in the buckets -/
def scanBucketsW (h : Heap Piece) (own : Bitfield) (whom : PH) : List LinkedList → W (Option Nat)
  | [] => (.ok none, 0)
  | ll :: lls => W.bind (scanListW h own whom (h.length + 1) ll.head) fun r =>
    match r with
    | some i => (.ok (some i), 0)
    | none => scanBucketsW h own whom lls

/-- piecetracker.go:150-174 `NextPiece` -/
def NextPieceW (t : Tracker) (own : Bitfield) (whom : PH) : W (Tracker × Nat × Bool) :=
  W.bind (scanBucketsW t.heap own whom (t.buckets.drop 1)) fun r =>
    match r with
    | some i => (.ok ({ t with requests := addRequest t.requests whom.ptr i }, i, true), 0)
    | none => (.ok (t, 0, false), 0)

end Verif.PeerWork
