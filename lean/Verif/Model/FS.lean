import Verif.Model.Go
/-
Model of the file system calls used by /repo, and of /repo/src/utils/futils.go.

A file system state maps a path to the content of the regular file there.  Directories, permissions, links, open
handles to deleted files and concurrent changes by other processes are not modelled; the effect of `os.MkdirAll` on
directories is invisible.  Every system call may fail (see `Exec`), a failing or interrupted write may have written a part of its data.
-/
set_option autoImplicit false

namespace Verif.FS

/-- contents of the files -/
abbrev State := Bytes → Option Bytes

def State.set (fs : State) (path : Bytes) (c : Bytes) : State := fun p => if p = path then some c else fs p

/-- `os.File.WriteAt(data, off)` / `Write` at offset `off`: a gap behind the end of the file is filled with zeros.
Writing no bytes changes nothing. -/
def writeAt (c : Bytes) (off : Nat) (data : Bytes) : Bytes :=
  if data = [] then c
  else (c ++ List.replicate (off - c.length) 0).take off ++ data ++ c.drop (off + data.length)

/-- Programs that make system calls.  The continuation receives whether the call succeeded (for `size`: the size). -/
inductive Prog where
  | ret (r : Res Unit)
  /-- `os.OpenFile(path, O_RDWR)` -/
  | openRW (path : Bytes) (k : Bool → Prog)
  /-- `os.MkdirAll(filepath.Dir(path))` -/
  | mkdirAll (path : Bytes) (k : Bool → Prog)
  /-- `os.OpenFile(path, O_CREATE|O_RDWR|O_TRUNC)` -/
  | openTrunc (path : Bytes) (k : Bool → Prog)
  /-- `fp.Stat().Size()` or `fp.Seek(0, io.SeekEnd)` -/
  | size (path : Bytes) (k : Option Nat → Prog)
  /-- `fp.Truncate(n)`, used to shrink -/
  | truncate (path : Bytes) (n : Int) (k : Bool → Prog)
  /-- `fp.Write(data)` with the file offset at `pos` -/
  | write (path : Bytes) (pos : Nat) (data : Bytes) (k : Bool → Prog)

/-- sequential composition -/
def Prog.bind : Prog → (Res Unit → Prog) → Prog
  | .ret r, f => f r
  | .openRW p k, f => .openRW p fun b => (k b).bind f
  | .mkdirAll p k, f => .mkdirAll p fun b => (k b).bind f
  | .openTrunc p k, f => .openTrunc p fun b => (k b).bind f
  | .size p k, f => .size p fun b => (k b).bind f
  | .truncate p n k, f => .truncate p n fun b => (k b).bind f
  | .write p o d k, f => .write p o d fun b => (k b).bind f

/-- how an execution ends -/
inductive Outcome where
  /-- the function returned or panicked -/
  | done (r : Res Unit)
  /-- the process died -/
  | crashed
  deriving DecidableEq

/-- `Exec sp prog fs o fs'`: started in `fs` the program can end with outcome `o` in `fs'`.
Any call may fail, and the process may die before any call or in the middle of a write.  Opening an *existing* file
with `O_RDWR` can fail (no permission, too many open files, …) only if `sp` is true. -/
inductive Exec (sp : Bool) : Prog → State → Outcome → State → Prop
  | ret (r : Res Unit) (fs : State) : Exec sp (.ret r) fs (.done r) fs
  | crash (p : Prog) (fs : State) : Exec sp p fs .crashed fs
  | open_ok (path : Bytes) (k : Bool → Prog) (fs fs' : State) (o : Outcome) (c : Bytes) :
      fs path = some c → Exec sp (k true) fs o fs' → Exec sp (.openRW path k) fs o fs'
  | open_fail (path : Bytes) (k : Bool → Prog) (fs fs' : State) (o : Outcome) :
      (fs path = none ∨ sp = true) → Exec sp (k false) fs o fs' → Exec sp (.openRW path k) fs o fs'
  | mkdir (path : Bytes) (k : Bool → Prog) (fs fs' : State) (o : Outcome) (b : Bool) :
      Exec sp (k b) fs o fs' → Exec sp (.mkdirAll path k) fs o fs'
  | trunc_ok (path : Bytes) (k : Bool → Prog) (fs fs' : State) (o : Outcome) :
      Exec sp (k true) (fs.set path []) o fs' → Exec sp (.openTrunc path k) fs o fs'
  | trunc_fail (path : Bytes) (k : Bool → Prog) (fs fs' : State) (o : Outcome) :
      Exec sp (k false) fs o fs' → Exec sp (.openTrunc path k) fs o fs'
  | size_ok (path : Bytes) (k : Option Nat → Prog) (fs fs' : State) (o : Outcome) (c : Bytes) :
      fs path = some c → Exec sp (k (some c.length)) fs o fs' → Exec sp (.size path k) fs o fs'
  | size_fail (path : Bytes) (k : Option Nat → Prog) (fs fs' : State) (o : Outcome) :
      Exec sp (k none) fs o fs' → Exec sp (.size path k) fs o fs'
  | truncate_ok (path : Bytes) (n : Nat) (k : Bool → Prog) (fs fs' : State) (o : Outcome) (c : Bytes) :
      fs path = some c → Exec sp (k true) (fs.set path (c.take n)) o fs' → Exec sp (.truncate path n k) fs o fs'
  | truncate_fail (path : Bytes) (n : Int) (k : Bool → Prog) (fs fs' : State) (o : Outcome) :
      Exec sp (k false) fs o fs' → Exec sp (.truncate path n k) fs o fs'
  | write_ok (path : Bytes) (pos : Nat) (data : Bytes) (k : Bool → Prog) (fs fs' : State) (o : Outcome) (c : Bytes) :
      fs path = some c → Exec sp (k true) (fs.set path (writeAt c pos data)) o fs' →
      Exec sp (.write path pos data k) fs o fs'
  | write_fail (path : Bytes) (pos : Nat) (data : Bytes) (k : Bool → Prog) (fs fs' : State) (o : Outcome) (c : Bytes)
      (j : Nat) : fs path = some c → Exec sp (k false) (fs.set path (writeAt c pos (data.take j))) o fs' →
      Exec sp (.write path pos data k) fs o fs'
  | write_crash (path : Bytes) (pos : Nat) (data : Bytes) (k : Bool → Prog) (fs : State) (c : Bytes) (j : Nat) :
      fs path = some c → Exec sp (.write path pos data k) fs .crashed (fs.set path (writeAt c pos (data.take j)))

/-! ### /repo/src/utils/futils.go -/

/-- futils.go:10 -/
def writeSize : Nat := 1048576

/-- futils.go:44-59: the loop of `AppendZeros`; the first argument bounds the number of iterations.
`data[:left]` panics for a negative `left`. -/
def appendLoop (path : Bytes) : Nat → Nat → Int → Prog
  | 0, _, _ => .ret .timeout
  | fuel + 1, pos, left =>
    if left = 0 then .ret (.ok ())
    else if (writeSize : Int) < left then
      .write path pos (List.replicate writeSize 0) fun ok =>
        if ok then appendLoop path fuel (pos + writeSize) (left - writeSize) else .ret (.err .os)
    else if left < 0 then .ret .panic
    else
      .write path pos (List.replicate left.toNat 0) fun ok =>
        if ok then appendLoop path fuel (pos + left.toNat) 0 else .ret (.err .os)

/-- futils.go:34-61 `AppendZeros`.  Every iteration but the last writes at least one byte, so `amnt + 1` iterations suffice. -/
def AppendZeros (path : Bytes) (amnt : Int) : Prog :=
  .size path fun s => match s with
    | none => .ret (.err .os)
    | some n => appendLoop path (amnt.toNat + 2) n amnt

/-- futils.go:13-31 `CreateZeroFilledFile` -/
def CreateZeroFilledFile (path : Bytes) (size : Int) : Prog :=
  .mkdirAll path fun ok =>
    if ok then
      .openTrunc path fun ok => if ok then AppendZeros path size else .ret (.err .os)
    else .ret (.err .os)

/-- futils.go:79-100: `OCAT` once the file is open -/
def checkSize (path : Bytes) (length : Int) : Prog :=
  .size path fun s => match s with
    | none => .ret (.err .os)
    | some chkLen =>
      if (chkLen : Int) = length then .ret (.ok ())
      else if (chkLen : Int) > length then
        .truncate path length fun ok => .ret (if ok then .ok () else .err .os)
      else AppendZeros path (length - chkLen)

/-- futils.go:67-101 `OCAT` -/
def OCAT (path : Bytes) (length : Int) : Prog :=
  .openRW path fun ok =>
    if ok then checkSize path length
    else (CreateZeroFilledFile path length).bind fun r =>
      match r with
      | .ok _ => checkSize path length
      | r => .ret r

end Verif.FS
