import Verif.Model.MsgHandler
/-
The bytes that are read from the files while messages are handled: /repo/src/swarm/msghandler.go with /repo/src/torrent/fileio/fileio.go:133-163.
-/
set_option autoImplicit false

namespace Verif.ReadWork
open Verif.P2P Verif.Bf Verif.Files Verif.FileIO Verif.PieceTracker Verif.MsgHandler

/-- fileio.go:152-162: the loop of `ReadPiece`, with the number of bytes that `ReadAt` delivers (also when they are too few) -/
def readLoopN (fs : FS.State) (fio : FileIO) : List PieceLocation → Nat → Bytes → Res (Nat × Bytes) × Nat
  | [], offset, buf => (.ok (offset, buf), 0)
  | l :: ls, offset, buf =>
    if l.loc.readAmnt < 0 ∨ (offset : Int) + l.loc.readAmnt > buf.length then (.panic, 0)
    else match fio.torInfo.flist[l.fidx]? with
      | none => (.panic, 0)
      | some e =>
        if e.base.localPath ∈ fio.opened then
          match fs e.base.localPath with
          | none => (.err .os, 0)
          | some c =>
            if l.loc.seekAmnt < 0 then (.err .os, 0)
            else
              let d := (c.drop l.loc.seekAmnt.toNat).take l.loc.readAmnt.toNat
              if c.length < l.loc.seekAmnt.toNat + l.loc.readAmnt.toNat ∧ 0 < l.loc.readAmnt then (.err .eof, d.length)
              else ((readLoopN fs fio ls (offset + l.loc.readAmnt.toNat) (overwrite buf offset d)).1,
                d.length + (readLoopN fs fio ls (offset + l.loc.readAmnt.toNat) (overwrite buf offset d)).2)
        else (.err .path, 0)

/-- fileio.go:145-163 `ReadPiece` -/
def ReadPieceN (fs : FS.State) (fio : FileIO) (index : Int) (buf : Bytes) : Res (Nat × Bytes) × Nat :=
  match fio.torInfo.PieceLookup index with
  | .ok plocs => readLoopN fs fio plocs 0 buf
  | .err e => (.err e, 0)
  | .panic => (.panic, 0)
  | .timeout => (.timeout, 0)

/-- msghandler.go:58-76 `handleRequest`: the piece is read before the range is looked at -/
def handleRequestN (s : Swarm) (index begin reqlen : UInt32) (writeOk : Bool) (st : St) : (St × Res Unit) × Nat :=
  match mayServe s index.toNat with
  | .ok true =>
    match ReadPieceN s.fs s.fio index.toNat st.buf with
    | (.ok (_, buf), n) =>
      match answer buf index begin reqlen with
      | .ok m => if writeOk then (({ st with buf := buf, out := st.out ++ [m] }, .ok ()), n) else (({ st with buf := buf }, .err .os), n)
      | .err e => (({ st with buf := buf }, .err e), n)
      | .panic => (({ st with buf := buf }, .panic), n)
      | .timeout => (({ st with buf := buf }, .timeout), n)
    | (.err e, n) => ((st, .err e), n)
    | (.panic, n) => ((st, .panic), n)
    | (.timeout, n) => ((st, .timeout), n)
  | .ok false => ((st, .ok ()), 0)
  | .err e => ((st, .err e), 0)
  | .panic => ((st, .panic), 0)
  | .timeout => ((st, .timeout), 0)

/-- msghandler.go:18-25: one message -/
def handleOneN (s : Swarm) (me : PH) (wok : Nat → Bool) (m : Msg) (st : St) : (St × Res Unit) × Nat :=
  match m with
  | .request index begin reqlen => handleRequestN s index begin reqlen (wok st.out.length) st
  | .bitfield _ b => (handleBitfield s me b st, 0)
  | _ => ((st, .ok ()), 0)

/-- msghandler.go:17-32: the loop -/
def handleAllN (s : Swarm) (me : PH) (wok : Nat → Bool) : List Msg → St → (St × Res Unit) × Nat
  | [], st => ((st, .ok ()), 0)
  | m :: ms, st =>
    match handleOneN s me wok m st with
    | ((st', .ok _), n) => ((handleAllN s me wok ms st').1, n + (handleAllN s me wok ms st').2)
    | ((st', r), n) => ((st', r), n)

/-- msghandler.go:11-33 `handleMessage` -/
def handleMessageN (fuel : Nat) (s : Swarm) (me : PH) (wok : Nat → Bool) (buf : Bytes) (st : St) : (St × Res Unit) × Nat :=
  match DecodeAll fuel buf with
  | .ok dar => handleAllN s me wok dar.msgs st
  | .err e => ((st, .err e), 0)
  | .panic => ((st, .panic), 0)
  | .timeout => ((st, .timeout), 0)

end Verif.ReadWork
