import Verif.Model.FileIO
import Verif.Model.Bencode
/-
Model of the texts of the errors of `WritePiece` (/repo/src/torrent/fileio/fileio.go) and of `PieceInfo` (/repo/src/torrent/filesd/entry.go).  The functions are those of
Model/FileIO.lean and Model/Files.lean, with the errors that they return.
-/
set_option autoImplicit false

namespace Verif.WriteErr
open Verif.Files Verif.FS Verif.FileIO

/-- the errors of `WritePiece`; the text of an error of the operating system is `e` -/
inductive WriteErr where
  /-- info.go:286 -/
  | negative
  /-- info.go:290 -/
  | bounds
  /-- fileio.go:175 -/
  | hash
  /-- fileio.go:129 -/
  | path (p : Bytes)
  /-- fileio.go:126 -/
  | os (e : Bytes)
  deriving DecidableEq, Repr

/-- the lines cited at `WriteErr`, and fileio.go:21-23 `PathError.Error` -/
def WriteErr.text : WriteErr → Bytes
  | .negative => ascii "negative index"
  | .bounds => ascii "index out of bounds"
  | .hash => ascii "invalid hash, refusing write"
  | .path p => ascii "path [" ++ p ++ ascii "] does not exist"
  | .os e => e

/-- the kind of the error in Model/FileIO.lean -/
def WriteErr.kind : WriteErr → Err
  | .negative => .other
  | .bounds => .other
  | .hash => .other
  | .path _ => .path
  | .os _ => .os

/-- info.go:283-294 `PieceLookup` -/
def lookupT (ti : TorInfo) (index : Int) : Res (Except WriteErr (List PieceLocation)) :=
  if index < 0 then .ok (.error .negative)
  else if index ≥ ti.numPieces then .ok (.error .bounds)
  else match ti.pm[index.toNat]? with
    | none => .panic
    | some locs => .ok (.ok locs)

/-- fileio.go:178-188: the loop of `WritePiece`, as `FileIO.writeLoop`; `oserr` is what the operating system says about a file -/
def writeLoopT (oserr : Bytes → Bytes) (fio : FileIO) (full : Bytes) : List PieceLocation → Nat → State → State × Res (Except WriteErr Nat)
  | [], offset, fs => (fs, .ok (.ok offset))
  | l :: ls, offset, fs =>
    if l.loc.readAmnt < 0 ∨ (offset : Int) + l.loc.readAmnt > full.length then (fs, .panic)
    else match fio.torInfo.flist[l.fidx]? with
      | none => (fs, .panic)
      | some e =>
        if e.base.localPath ∈ fio.opened then
          match fs e.base.localPath with
          | none => (fs, .ok (.error (.os (oserr e.base.localPath))))
          | some c =>
            if l.loc.seekAmnt < 0 then (fs, .ok (.error (.os (oserr e.base.localPath))))
            else writeLoopT oserr fio full ls (offset + l.loc.readAmnt.toNat)
              (fs.set e.base.localPath
                (writeAt c l.loc.seekAmnt.toNat ((full.drop offset).take l.loc.readAmnt.toNat)))
        else (fs, .ok (.error (.path e.base.localPath)))

/-- fileio.go:165-189 `WritePiece`, as `FileIO.WritePiece` -/
def WritePieceT (oserr : Bytes → Bytes) (H : Bytes → Bytes) (fs : State) (fio : FileIO) (index : Int) (data spare : Bytes) :
    State × Res (Except WriteErr Nat) :=
  match lookupT fio.torInfo index with
  | .ok (.ok plocs) =>
    match fio.torInfo.PieceHash index with
    | .ok knownHash =>
      if H data ≠ knownHash then (fs, .ok (.error .hash))
      else writeLoopT oserr fio (data ++ spare) plocs 0 fs
    | .err e => (fs, .err e)
    | .panic => (fs, .panic)
    | .timeout => (fs, .timeout)
  | .ok (.error e) => (fs, .ok (.error e))
  | .err e => (fs, .err e)
  | .panic => (fs, .panic)
  | .timeout => (fs, .timeout)

/-- entry.go:64-127 `PieceInfo` with the text of the error (entry.go:92) -/
def PieceInfoT (few : Entry) (index pieceLen : Int) : Except Bytes PieceInfo :=
  if index < few.startPiece ∨ index > few.endPiece then .error (ascii "index " ++ Bencode.intDec index ++ ascii " out of range")
  else if index < few.endPiece then
    .ok ⟨(seekLoop pieceLen (index - few.startPiece).toNat (0, few.startOff)).1, pieceLen - (seekLoop pieceLen (index - few.startPiece).toNat (0, few.startOff)).2⟩
  else .ok ⟨(seekLoop pieceLen (index - few.startPiece).toNat (0, few.startOff)).1, (few.endOff - (seekLoop pieceLen (index - few.startPiece).toNat (0, few.startOff)).2) + 1⟩

end Verif.WriteErr
