import Verif.Model.FS
import Verif.Model.Files
/-
Model of /repo/src/torrent/fileio/fileio.go (Move, Close and CloseAll, which the rest of the program never calls, are in Model/Handles.lean).

Each file has its own lock and one `read` / `write` holds it for a single `ReadAt` / `WriteAt`; the model runs one
ReadPiece / WritePiece after the other.  SHA-1 is the parameter `H`.
-/
set_option autoImplicit false

namespace Verif.FileIO
open Verif.Files Verif.FS

/-- fileio.go:31-34; of the map `lfps` only the set of keys is kept, the handle stored under a path is a handle of the
file with that path (fileio.go:62) -/
structure FileIO where
  opened : List Bytes
  torInfo : TorInfo

/-- fileio.go:67-77 `OCATAll` (with `OCAT`, fileio.go:57-65); on success `lfps` has exactly the given local paths as new keys -/
def OCATAll : List Entry → Prog
  | [] => .ret (.ok ())
  | fe :: rest => (OCAT fe.base.localPath fe.base.length).bind fun r =>
      match r with
      | .ok _ => OCATAll rest
      | r => .ret r

/-- the `FileIO` after a successful `OCATAll` of the torrent's files: swarm.go:54-61 -/
def openedAll (ti : TorInfo) : FileIO := ⟨ti.flist.map fun e => e.base.localPath, ti⟩

/-- overwrite a part of a buffer: the effect of a read into `buf[off : off+len(d)]` -/
def overwrite (buf : Bytes) (off : Nat) (d : Bytes) : Bytes := buf.take off ++ d ++ buf.drop (off + d.length)

/-- fileio.go:152-162: the loop of `ReadPiece` together with `read` (fileio.go:133-143) and `os.File.ReadAt` (short
reads are errors, negative offsets are errors).  Returns the number of bytes and the buffer; what is in the buffer
after an error is not modelled.  The buffer has no spare capacity. -/
def readLoop (fs : State) (fio : FileIO) : List PieceLocation → Nat → Bytes → Res (Nat × Bytes)
  | [], offset, buf => .ok (offset, buf)
  | l :: ls, offset, buf =>
    if l.loc.readAmnt < 0 ∨ (offset : Int) + l.loc.readAmnt > buf.length then .panic
    else match fio.torInfo.flist[l.fidx]? with
      | none => .panic
      | some e =>
        if e.base.localPath ∈ fio.opened then
          match fs e.base.localPath with
          | none => .err .os
          | some c =>
            if l.loc.seekAmnt < 0 then .err .os
            else if c.length < l.loc.seekAmnt.toNat + l.loc.readAmnt.toNat ∧ 0 < l.loc.readAmnt then .err .eof
            else readLoop fs fio ls (offset + l.loc.readAmnt.toNat)
              (overwrite buf offset ((c.drop l.loc.seekAmnt.toNat).take l.loc.readAmnt.toNat))
        else .err .path

/-- fileio.go:145-163 `ReadPiece` -/
def ReadPiece (fs : State) (fio : FileIO) (index : Int) (buf : Bytes) : Res (Nat × Bytes) := do
  let plocs ← fio.torInfo.PieceLookup index
  readLoop fs fio plocs 0 buf

/-- fileio.go:178-188: the loop of `WritePiece` with `write` (fileio.go:121-131) and `os.File.WriteAt`.  `full` are
the bytes of `data` up to its capacity (slice expressions are bounded by the capacity).  The file system
after the call is returned also if there is an error or a panic. -/
def writeLoop (fio : FileIO) (full : Bytes) : List PieceLocation → Nat → State → State × Res Nat
  | [], offset, fs => (fs, .ok offset)
  | l :: ls, offset, fs =>
    if l.loc.readAmnt < 0 ∨ (offset : Int) + l.loc.readAmnt > full.length then (fs, .panic)
    else match fio.torInfo.flist[l.fidx]? with
      | none => (fs, .panic)
      | some e =>
        if e.base.localPath ∈ fio.opened then
          match fs e.base.localPath with
          | none => (fs, .err .os)
          | some c =>
            if l.loc.seekAmnt < 0 then (fs, .err .os)
            else writeLoop fio full ls (offset + l.loc.readAmnt.toNat)
              (fs.set e.base.localPath
                (writeAt c l.loc.seekAmnt.toNat ((full.drop offset).take l.loc.readAmnt.toNat)))
        else (fs, .err .path)

/-- fileio.go:165-189 `WritePiece`; `spare` are the bytes between the length and the capacity of `data` -/
def WritePiece (H : Bytes → Bytes) (fs : State) (fio : FileIO) (index : Int) (data spare : Bytes) : State × Res Nat :=
  match fio.torInfo.PieceLookup index with
  | .ok plocs =>
    match fio.torInfo.PieceHash index with
    | .ok knownHash =>
      if H data ≠ knownHash then (fs, .err .other)
      else writeLoop fio (data ++ spare) plocs 0 fs
    | .err e => (fs, .err e)
    | .panic => (fs, .panic)
    | .timeout => (fs, .timeout)
  | .err e => (fs, .err e)
  | .panic => (fs, .panic)
  | .timeout => (fs, .timeout)

end Verif.FileIO
