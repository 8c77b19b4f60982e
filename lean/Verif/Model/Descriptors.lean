import Verif.Model.FS
/-
Opening the files of a torrent (/repo/src/utils/futils.go, /repo/src/torrent/fileio/fileio.go:55-77) in a process that has a limit of file descriptors, on a disk where some files
must not be opened.

`Model/FS.lean` lets any open fail at any time.  Here an open fails for a reason: the file is missing, it must not be opened, or all descriptors are in use.
A descriptor is given back when the file is closed, or when nothing refers to the `os.File` any more and its finalizer runs (package os, `newFile`: `runtime.SetFinalizer(f.file, (*file).close)`).
`OCATAll` runs before the program opens any connection, so nobody else opens or closes files meanwhile.
-/
set_option autoImplicit false

namespace Verif.Descriptors
open Verif.FS

/-- what the operating system allows -/
structure Rules where
  /-- how many descriptors the process may have -/
  limit : Nat
  /-- paths that the process must not open for writing -/
  deny : Bytes → Bool
  /-- calls other than opens may fail for no reason, and the process may be killed -/
  faulty : Bool

/-- the state of the process as far as files are concerned -/
structure Sys where
  fs : State
  /-- descriptors in use -/
  used : Nat
  /-- how many of these belong to an `os.File` that nothing refers to any more -/
  garbage : Nat

/-- the same process with other files -/
def Sys.withFs (s : Sys) (fs : State) : Sys := { s with fs := fs }

/-- one more descriptor -/
def Sys.opened (s : Sys) : Sys := { s with used := s.used + 1 }

/-- the finalizer of an `os.File` has run -/
def Sys.collected (s : Sys) : Sys := { s with used := s.used - 1, garbage := s.garbage - 1 }

/-- an open of `path` can succeed -/
def Rules.may (R : Rules) (s : Sys) (path : Bytes) : Prop := s.used < R.limit ∧ R.deny path = false

/-- `ExecL R prog s o s'`: as `FS.Exec`, with reasons for failing opens.  The garbage collector may run before any call. -/
inductive ExecL (R : Rules) : Prog → Sys → Outcome → Sys → Prop
  | ret (r : Res Unit) (s : Sys) : ExecL R (.ret r) s (.done r) s
  | crash (p : Prog) (s : Sys) : R.faulty = true → ExecL R p s .crashed s
  | gc (p : Prog) (s s' : Sys) (o : Outcome) : 0 < s.garbage → ExecL R p s.collected o s' → ExecL R p s o s'
  | open_ok (path : Bytes) (k : Bool → Prog) (s s' : Sys) (o : Outcome) (c : Bytes) :
      R.may s path → s.fs path = some c → ExecL R (k true) s.opened o s' → ExecL R (.openRW path k) s o s'
  | open_fail (path : Bytes) (k : Bool → Prog) (s s' : Sys) (o : Outcome) :
      (s.fs path = none ∨ ¬ R.may s path) → ExecL R (k false) s o s' → ExecL R (.openRW path k) s o s'
  | mkdir (path : Bytes) (k : Bool → Prog) (s s' : Sys) (o : Outcome) (b : Bool) :
      (b = true ∨ R.faulty = true) → ExecL R (k b) s o s' → ExecL R (.mkdirAll path k) s o s'
  | trunc_ok (path : Bytes) (k : Bool → Prog) (s s' : Sys) (o : Outcome) :
      R.may s path → ExecL R (k true) (s.opened.withFs (s.fs.set path [])) o s' → ExecL R (.openTrunc path k) s o s'
  | trunc_fail (path : Bytes) (k : Bool → Prog) (s s' : Sys) (o : Outcome) :
      (¬ R.may s path ∨ R.faulty = true) → ExecL R (k false) s o s' → ExecL R (.openTrunc path k) s o s'
  | size_ok (path : Bytes) (k : Option Nat → Prog) (s s' : Sys) (o : Outcome) (c : Bytes) :
      s.fs path = some c → ExecL R (k (some c.length)) s o s' → ExecL R (.size path k) s o s'
  | size_fail (path : Bytes) (k : Option Nat → Prog) (s s' : Sys) (o : Outcome) :
      R.faulty = true → ExecL R (k none) s o s' → ExecL R (.size path k) s o s'
  | truncate_ok (path : Bytes) (n : Nat) (k : Bool → Prog) (s s' : Sys) (o : Outcome) (c : Bytes) :
      s.fs path = some c → ExecL R (k true) (s.withFs (s.fs.set path (c.take n))) o s' → ExecL R (.truncate path n k) s o s'
  | truncate_fail (path : Bytes) (n : Int) (k : Bool → Prog) (s s' : Sys) (o : Outcome) :
      R.faulty = true → ExecL R (k false) s o s' → ExecL R (.truncate path n k) s o s'
  | write_ok (path : Bytes) (pos : Nat) (data : Bytes) (k : Bool → Prog) (s s' : Sys) (o : Outcome) (c : Bytes) :
      s.fs path = some c → ExecL R (k true) (s.withFs (s.fs.set path (writeAt c pos data))) o s' → ExecL R (.write path pos data k) s o s'
  | write_fail (path : Bytes) (pos : Nat) (data : Bytes) (k : Bool → Prog) (s s' : Sys) (o : Outcome) (c : Bytes) (j : Nat) :
      R.faulty = true → s.fs path = some c → ExecL R (k false) (s.withFs (s.fs.set path (writeAt c pos (data.take j)))) o s' →
      ExecL R (.write path pos data k) s o s'
  | write_crash (path : Bytes) (pos : Nat) (data : Bytes) (k : Bool → Prog) (s : Sys) (c : Bytes) (j : Nat) :
      R.faulty = true → s.fs path = some c → ExecL R (.write path pos data k) s .crashed (s.withFs (s.fs.set path (writeAt c pos (data.take j))))

/-- fileio.go:61 `fio.lfps[fpath] = newLockedFp(f)`: if there was a file under this path, nothing refers to it any more; `keys` are the keys of the map -/
def replace (keys : List Bytes) (path : Bytes) (s : Sys) : Sys :=
  { s with garbage := s.garbage + (if path ∈ keys then 1 else 0) }

/-- fileio.go:67-77 `OCATAll` with fileio.go:57-65 `OCAT`, for files given by path and length; `keys` are the keys of the map `lfps` so far -/
inductive AllL (R : Rules) : List (Bytes × Nat) → List Bytes → Sys → Outcome → Sys → Prop
  | nil (keys : List Bytes) (s : Sys) : AllL R [] keys s (.done (.ok ())) s
  | next (f : Bytes × Nat) (fs : List (Bytes × Nat)) (keys : List Bytes) (s s' s'' : Sys) (o : Outcome) :
      ExecL R (OCAT f.1 f.2) s (.done (.ok ())) s' → AllL R fs (f.1 :: keys) (replace keys f.1 s') o s'' → AllL R (f :: fs) keys s o s''
  | stop (f : Bytes × Nat) (fs : List (Bytes × Nat)) (keys : List Bytes) (s s' : Sys) (o : Outcome) :
      ExecL R (OCAT f.1 f.2) s o s' → o ≠ .done (.ok ()) → AllL R (f :: fs) keys s o s'

end Verif.Descriptors
