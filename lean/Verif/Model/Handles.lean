import Verif.Model.FileIO
/-
Model of the open files of a `FileIO` with their names: /repo/src/torrent/fileio/fileio.go:41-143, with `Move`, `Close` and `CloseAll`.

Model/FileIO identifies a file with its path.  Here a name leads to a file (an inode), and a handle stays with its file when the
name is moved.  Different strings are different names (no `./`, no symbolic links); directories are not modelled.  One operation
runs after the other (for the locks see Model/FileConc).  Every system call may fail: the flags of the operations say whether it does.
-/
set_option autoImplicit false

namespace Verif.Handles
open Verif.Files Verif.FS

/-- an `*os.File`: the file it was opened for, and whether it is still open -/
structure Handle where
  inode : Nat
  isOpen : Bool
  deriving DecidableEq

/-- The disk and the `FileIO` (fileio.go:31-34).  `handles` are all handles ever made, in order; `lfps` is the map, with the position
in `handles` (fileio.go:26-29 without the lock, which is free between operations).  Files from `used` on do not exist yet. -/
structure St where
  dir : Bytes → Option Nat
  data : Nat → Bytes
  used : Nat
  handles : List Handle
  lfps : List (Bytes × Nat)

/-- fileio.go:41-46 `NewFileIO`, on a disk with these files -/
def NewFileIO (dir : Bytes → Option Nat) (data : Nat → Bytes) (used : Nat) : St := ⟨dir, data, used, [], []⟩

/-- `fio.lfps[path]` -/
def St.lookup (s : St) (path : Bytes) : Option Nat := (s.lfps.find? fun e => e.1 == path).map fun e => e.2

/-- the handle under a path -/
def St.handle (s : St) (path : Bytes) : Option Handle := (s.lookup path).bind fun h => s.handles[h]?

/-- `fio.lfps[path] = …`: assignment to a map -/
def setKey (m : List (Bytes × Nat)) (path : Bytes) (h : Nat) : List (Bytes × Nat) := (path, h) :: m.filter fun e => e.1 != path

/-- fileio.go:57-65 `OCAT` with `newLockedFp` (48-53): the file is opened, or made if there is none, and gets the wanted length
(futils.go:66-101; when and how the system calls fail, and what is left then, is in Model/FS).  A failing call leaves no handle behind. -/
def St.OCAT (s : St) (path : Bytes) (length : Nat) (fails : Bool) : St × Res Bytes :=
  if fails then (s, .err .os)
  else match s.dir path with
    | some i => ({ s with data := fun j => if j = i then (s.data i).take length ++ List.replicate (length - (s.data i).length) 0 else s.data j
                          handles := s.handles ++ [⟨i, true⟩], lfps := setKey s.lfps path s.handles.length }, .ok [])
    | none => ({ dir := fun p => if p = path then some s.used else s.dir p
                 data := fun j => if j = s.used then List.replicate length 0 else s.data j
                 used := s.used + 1
                 handles := s.handles ++ [⟨s.used, true⟩], lfps := setKey s.lfps path s.handles.length }, .ok [])

/-- fileio.go:79-89 `Move`; `os.Rename` replaces the target, and does nothing if both names lead to the same file -/
def St.Move (s : St) (fromPath toPath : Bytes) (fails : Bool) : St × Res Bytes :=
  match s.lookup fromPath with
  | none => (s, .err .path)
  | some _ =>
    if fails then (s, .err .os)
    else match s.dir fromPath with
      | none => (s, .err .os)
      | some i =>
        if s.dir toPath = some i then (s, .ok [])
        else ({ s with dir := fun p => if p = toPath then some i else if p = fromPath then none else s.dir p }, .ok [])

/-- `os.File.Close`: a second call is an error; if the system call fails the handle is closed all the same -/
def closeHandle (s : St) (h : Nat) (fails : Bool) : St × Res Bytes :=
  match s.handles[h]? with
  | none => (s, .panic)
  | some f =>
    if f.isOpen then ({ s with handles := s.handles.set h { f with isOpen := false } }, if fails then .err .os else .ok [])
    else (s, .err .os)

/-- fileio.go:91-101 `Close` -/
def St.Close (s : St) (path : Bytes) (fails : Bool) : St × Res Bytes :=
  match s.lookup path with
  | none => (s, .err .path)
  | some h => closeHandle s h fails

/-- fileio.go:103-119 `CloseAll`: the loop, in the order in which the map is traversed.  The call stops at the first error.  The calls
of `Close` do not fail by themselves. -/
def St.CloseAll (s : St) : List Nat → St × Res Bytes
  | [] => (s, .ok [])
  | h :: hs => match closeHandle s h false with
    | (s', .ok _) => s'.CloseAll hs
    | r => r

/-- fileio.go:133-143 `read`, with `os.File.ReadAt`: a read of no bytes makes no system call -/
def St.read (s : St) (path : Bytes) (off : Int) (n : Nat) (fails : Bool) : Res Bytes :=
  match s.lookup path with
  | none => .err .path
  | some h => match s.handles[h]? with
    | none => .panic
    | some f =>
      if off < 0 then .err .os
      else if n = 0 then .ok []
      else if f.isOpen = false ∨ fails = true then .err .os
      else if (s.data f.inode).length < off.toNat + n then .err .eof
      else .ok (((s.data f.inode).drop off.toNat).take n)

/-- fileio.go:121-131 `write`, with `os.File.WriteAt`; `fails` is the number of bytes written before the error, if there is one -/
def St.write (s : St) (path : Bytes) (off : Int) (d : Bytes) (fails : Option Nat) : St × Res Bytes :=
  match s.lookup path with
  | none => (s, .err .path)
  | some h => match s.handles[h]? with
    | none => (s, .panic)
    | some f =>
      if off < 0 then (s, .err .os)
      else if d = [] then (s, .ok [])
      else if f.isOpen = false then (s, .err .os)
      else match fails with
        | some k => ({ s with data := fun j => if j = f.inode then writeAt (s.data f.inode) off.toNat (d.take k) else s.data j }, .err .os)
        | none => ({ s with data := fun j => if j = f.inode then writeAt (s.data f.inode) off.toNat d else s.data j }, .ok [])

/-- the calls of the exported methods, and the reads and writes they are made of -/
inductive Op where
  | ocat (path : Bytes) (length : Nat) (fails : Bool)
  | move (fromPath toPath : Bytes) (fails : Bool)
  | close (path : Bytes) (fails : Bool)
  | closeAll (order : List Nat)
  | read (path : Bytes) (off : Int) (n : Nat) (fails : Bool)
  | write (path : Bytes) (off : Int) (d : Bytes) (fails : Option Nat)

/-- one call and its result -/
def Op.run (s : St) : Op → St × Res Bytes
  | .ocat p n f => s.OCAT p n f
  | .move a b f => s.Move a b f
  | .close p f => s.Close p f
  | .closeAll o => s.CloseAll o
  | .read p o n f => (s, s.read p o n f)
  | .write p o d f => s.write p o d f

/-- calls one after the other -/
def runAll (s : St) : List Op → St × List (Res Bytes)
  | [] => (s, [])
  | op :: ops => ((runAll (op.run s).1 ops).1, (op.run s).2 :: (runAll (op.run s).1 ops).2)

/-- fileio.go:152-162: the loop of `ReadPiece` -/
def readLoop (s : St) (ti : TorInfo) : List PieceLocation → Nat → Bytes → Res (Nat × Bytes)
  | [], offset, buf => .ok (offset, buf)
  | l :: ls, offset, buf =>
    if l.loc.readAmnt < 0 ∨ (offset : Int) + l.loc.readAmnt > buf.length then .panic
    else match ti.flist[l.fidx]? with
      | none => .panic
      | some e => match s.read e.base.localPath l.loc.seekAmnt l.loc.readAmnt.toNat false with
        | .ok d => readLoop s ti ls (offset + d.length) (FileIO.overwrite buf offset d)
        | .err x => .err x
        | .panic => .panic
        | .timeout => .timeout

/-- fileio.go:145-163 `ReadPiece` -/
def ReadPiece (s : St) (ti : TorInfo) (index : Int) (buf : Bytes) : Res (Nat × Bytes) := do
  let plocs ← ti.PieceLookup index
  readLoop s ti plocs 0 buf

/-- fileio.go:178-188: the loop of `WritePiece` -/
def writeLoop (ti : TorInfo) (full : Bytes) : List PieceLocation → Nat → St → St × Res Nat
  | [], offset, s => (s, .ok offset)
  | l :: ls, offset, s =>
    if l.loc.readAmnt < 0 ∨ (offset : Int) + l.loc.readAmnt > full.length then (s, .panic)
    else match ti.flist[l.fidx]? with
      | none => (s, .panic)
      | some e => match s.write e.base.localPath l.loc.seekAmnt ((full.drop offset).take l.loc.readAmnt.toNat) none with
        | (s', .ok _) => writeLoop ti full ls (offset + l.loc.readAmnt.toNat) s'
        | (s', .err x) => (s', .err x)
        | (s', .panic) => (s', .panic)
        | (s', .timeout) => (s', .timeout)

/-- fileio.go:165-189 `WritePiece` -/
def WritePiece (H : Bytes → Bytes) (s : St) (ti : TorInfo) (index : Int) (data spare : Bytes) : St × Res Nat :=
  match ti.PieceLookup index with
  | .ok plocs =>
    match ti.PieceHash index with
    | .ok knownHash =>
      if H data ≠ knownHash then (s, .err .other)
      else writeLoop ti (data ++ spare) plocs 0 s
    | .err e => (s, .err e)
    | .panic => (s, .panic)
    | .timeout => (s, .timeout)
  | .err e => (s, .err e)
  | .panic => (s, .panic)
  | .timeout => (s, .timeout)

end Verif.Handles
