import Verif.Model.FS
import Verif.Spec.Dirs
/-
The file system of Model/FS.lean with directories: which of the executions of a program that makes system calls are possible if
a file cannot be inside of a file and a directory cannot be opened for writing.  Unix without symbolic links; `cwd` is the current directory
of the process.  Nothing is ever deleted (the program deletes nothing), and no other process changes anything.
-/
set_option autoImplicit false

namespace Verif.DirFS
open Verif.FS Verif.Dirs

/-- a place: the names on the way from the root -/
abbrev Place := List Bytes

/-- `q` is a directory on the way to `p` -/
def Above (q p : Place) : Prop := ∃ r, r ≠ [] ∧ p = q ++ r

/-- the contents of the files (by path, as in Model/FS.lean), and the directories -/
structure Disk where
  files : State
  dirs : Place → Prop

/-- no file at this place -/
def Disk.Free (cwd : Place) (d : Disk) (q : Place) : Prop := ∀ p, resolve cwd p = q → d.files p = none

/-- the disk with directories down to `q` -/
def Disk.withDirs (d : Disk) (q : Place) : Disk := { d with dirs := fun x => d.dirs x ∨ x = q ∨ Above x q }

def Disk.set (d : Disk) (path c : Bytes) : Disk := { d with files := d.files.set path c }

/-- `DirExec sp cwd prog d o d'`: as `FS.Exec`, with directories: `os.MkdirAll(filepath.Dir(path))` (futils.go:17) succeeds only if no
file is on the way, `os.OpenFile(path, O_CREATE|O_RDWR|O_TRUNC)` (futils.go:23) only if the directories are there and the path is none.
Any call may fail; then `MkdirAll` may have made some of the directories. -/
inductive DirExec (sp : Bool) (cwd : Place) : Prog → Disk → Outcome → Disk → Prop
  | ret (r : Res Unit) (d : Disk) : DirExec sp cwd (.ret r) d (.done r) d
  | crash (p : Prog) (d : Disk) : DirExec sp cwd p d .crashed d
  | open_ok (path : Bytes) (k : Bool → Prog) (d d' : Disk) (o : Outcome) (c : Bytes) :
      d.files path = some c → DirExec sp cwd (k true) d o d' → DirExec sp cwd (.openRW path k) d o d'
  | open_fail (path : Bytes) (k : Bool → Prog) (d d' : Disk) (o : Outcome) :
      (d.files path = none ∨ sp = true) → DirExec sp cwd (k false) d o d' → DirExec sp cwd (.openRW path k) d o d'
  | mkdir_ok (path : Bytes) (k : Bool → Prog) (d d' : Disk) (o : Outcome) :
      (∀ q, Above q (resolve cwd path) → d.Free cwd q) →
      DirExec sp cwd (k true) { d with dirs := fun x => d.dirs x ∨ Above x (resolve cwd path) } o d' → DirExec sp cwd (.mkdirAll path k) d o d'
  | mkdir_fail (path : Bytes) (k : Bool → Prog) (d d' : Disk) (o : Outcome) :
      DirExec sp cwd (k false) d o d' → DirExec sp cwd (.mkdirAll path k) d o d'
  | mkdir_part (path : Bytes) (k : Bool → Prog) (d d' : Disk) (o : Outcome) (q : Place) :
      Above q (resolve cwd path) → d.Free cwd q → (∀ x, Above x q → d.Free cwd x) →
      DirExec sp cwd (k false) (d.withDirs q) o d' → DirExec sp cwd (.mkdirAll path k) d o d'
  | trunc_ok (path : Bytes) (k : Bool → Prog) (d d' : Disk) (o : Outcome) :
      (∀ q, Above q (resolve cwd path) → d.dirs q) → ¬ d.dirs (resolve cwd path) →
      DirExec sp cwd (k true) (d.set path []) o d' → DirExec sp cwd (.openTrunc path k) d o d'
  | trunc_fail (path : Bytes) (k : Bool → Prog) (d d' : Disk) (o : Outcome) :
      DirExec sp cwd (k false) d o d' → DirExec sp cwd (.openTrunc path k) d o d'
  | size_ok (path : Bytes) (k : Option Nat → Prog) (d d' : Disk) (o : Outcome) (c : Bytes) :
      d.files path = some c → DirExec sp cwd (k (some c.length)) d o d' → DirExec sp cwd (.size path k) d o d'
  | size_fail (path : Bytes) (k : Option Nat → Prog) (d d' : Disk) (o : Outcome) :
      DirExec sp cwd (k none) d o d' → DirExec sp cwd (.size path k) d o d'
  | truncate_ok (path : Bytes) (n : Nat) (k : Bool → Prog) (d d' : Disk) (o : Outcome) (c : Bytes) :
      d.files path = some c → DirExec sp cwd (k true) (d.set path (c.take n)) o d' → DirExec sp cwd (.truncate path n k) d o d'
  | truncate_fail (path : Bytes) (n : Int) (k : Bool → Prog) (d d' : Disk) (o : Outcome) :
      DirExec sp cwd (k false) d o d' → DirExec sp cwd (.truncate path n k) d o d'
  | write_ok (path : Bytes) (pos : Nat) (data : Bytes) (k : Bool → Prog) (d d' : Disk) (o : Outcome) (c : Bytes) :
      d.files path = some c → DirExec sp cwd (k true) (d.set path (writeAt c pos data)) o d' → DirExec sp cwd (.write path pos data k) d o d'
  | write_fail (path : Bytes) (pos : Nat) (data : Bytes) (k : Bool → Prog) (d d' : Disk) (o : Outcome) (c : Bytes) (j : Nat) :
      d.files path = some c → DirExec sp cwd (k false) (d.set path (writeAt c pos (data.take j))) o d' →
      DirExec sp cwd (.write path pos data k) d o d'
  | write_crash (path : Bytes) (pos : Nat) (data : Bytes) (k : Bool → Prog) (d : Disk) (c : Bytes) (j : Nat) :
      d.files path = some c → DirExec sp cwd (.write path pos data k) d .crashed (d.set path (writeAt c pos (data.take j)))

end Verif.DirFS
