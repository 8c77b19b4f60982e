import Verif.Model.FileConc
/-
Model of `Close` and `CloseAll` (/repo/src/torrent/fileio/fileio.go:91-119), called by any number of goroutines while others are in `ReadPiece`
and `WritePiece` (Model/FileConc).  The map `lfps` does not change: `Close` leaves the entry of a closed file there.

A file is named by its path, as in Model/FileConc; `Move` during the calls is not modelled (see Model/Handles).
-/
set_option autoImplicit false

namespace Verif.FileClose
open Verif.Files Verif.FS Verif.FileIO Verif.FileConc

/-- where a goroutine is in `Close` / `CloseAll` -/
inductive CPc where
  /-- before the next file: fileio.go:92, fileio.go:106 -/
  | top
  /-- in `lock.Lock()`, the flag is set: fileio.go:94, fileio.go:108 -/
  | pending
  /-- holds the lock: fileio.go:96, fileio.go:110 -/
  | held
  /-- returned -/
  | done (r : Res Unit)
  deriving DecidableEq

/-- A goroutine in `Close` or `CloseAll`: the files it has yet to close. -/
structure Closer where
  todo : List Bytes
  pc : CPc
  deriving DecidableEq

/-- the calls: `Close` of a path, or `CloseAll` with the order in which the map is traversed -/
inductive Closing where
  | close (path : Bytes)
  | closeAll (order : List Bytes)
  deriving DecidableEq

/-- the files of a call -/
def Closing.paths : Closing → List Bytes
  | .close p => [p]
  | .closeAll order => order

/-- a goroutine at the beginning of a call -/
def begin (c : Closing) : Closer := ⟨c.paths, .top⟩

/-- the shared state, which files are closed, the goroutines that read and write, and those that close -/
structure St where
  sh : Shared
  closed : Bytes → Bool
  ths : List Th
  cls : List Closer

/-- The goroutine is in `ReadAt` or `WriteAt` of a closed file with bytes left to transfer: `os.ErrClosed`.  (A call with no bytes makes no system call
and does not notice.) -/
def Cut (fio : FileIO) (closed : Bytes → Bool) (t : Th) : Prop :=
  ∃ l rest e k, t.pc = .move k ∧ t.ls = l :: rest ∧ fio.torInfo.flist[l.fidx]? = some e ∧ closed e.base.localPath = true ∧ k < l.loc.readAmnt.toNat

/-- Steps of a goroutine that closes files.  If `faulty`, closing can fail. -/
inductive CTStep (fio : FileIO) (faulty : Bool) : Shared → (Bytes → Bool) → Closer → Shared → (Bytes → Bool) → Closer → Prop
  /-- fileio.go:97, fileio.go:118: all is done -/
  | finish (s : Shared) (cl : Bytes → Bool) : CTStep fio faulty s cl ⟨[], .top⟩ s cl ⟨[], .done (.ok ())⟩
  /-- fileio.go:99 -/
  | noPath (s : Shared) (cl : Bytes → Bool) (p : Bytes) (rest : List Bytes) (ho : p ∉ fio.opened) :
      CTStep fio faulty s cl ⟨p :: rest, .top⟩ s cl ⟨p :: rest, .done (.err .path)⟩
  /-- fileio.go:94, fileio.go:108: first part of `Lock` -/
  | announce (s : Shared) (cl : Bytes → Bool) (p : Bytes) (rest : List Bytes) (ho : p ∈ fio.opened) (hfree : s.writer p = false) :
      CTStep fio faulty s cl ⟨p :: rest, .top⟩ (s.announce p) cl ⟨p :: rest, .pending⟩
  /-- second part -/
  | lock (s : Shared) (cl : Bytes → Bool) (p : Bytes) (rest : List Bytes) (hfree : s.readers p = 0) :
      CTStep fio faulty s cl ⟨p :: rest, .pending⟩ s cl ⟨p :: rest, .held⟩
  /-- fileio.go:96, fileio.go:110: the file is closed, then the lock is released -/
  | close (s : Shared) (cl : Bytes → Bool) (p : Bytes) (rest : List Bytes) (hc : cl p = false) :
      CTStep fio faulty s cl ⟨p :: rest, .held⟩ (s.unlock p) (fun q => if q = p then true else cl q) ⟨rest, .top⟩
  /-- the file was closed before: `os.ErrClosed`, and `CloseAll` stops (fileio.go:113-115) -/
  | again (s : Shared) (cl : Bytes → Bool) (p : Bytes) (rest : List Bytes) (hc : cl p = true) :
      CTStep fio faulty s cl ⟨p :: rest, .held⟩ (s.unlock p) cl ⟨p :: rest, .done (.err .os)⟩
  /-- the system call fails; the file is closed all the same -/
  | fail (s : Shared) (cl : Bytes → Bool) (p : Bytes) (rest : List Bytes) (hf : faulty = true) (hc : cl p = false) :
      CTStep fio faulty s cl ⟨p :: rest, .held⟩ (s.unlock p) (fun q => if q = p then true else cl q) ⟨p :: rest, .done (.err .os)⟩

/-- one goroutine makes a step -/
inductive Step (fio : FileIO) (faulty : Bool) : St → St → Prop
  /-- a step of `ReadPiece` or `WritePiece` that does not use a closed file -/
  | work (s : St) (j : Nat) (t t' : Th) (sh' : Shared) (hj : s.ths[j]? = some t) (hc : ¬ Cut fio s.closed t) (h : TStep fio false s.sh t sh' t') :
      Step fio faulty s ⟨sh', s.closed, s.ths.set j t', s.cls⟩
  /-- `ReadAt` or `WriteAt` of a closed file: the lock is released and the call returns the error (fileio.go:156-158, fileio.go:182-184) -/
  | cut (s : St) (j : Nat) (t : Th) (l : PieceLocation) (rest : List PieceLocation) (e : Entry) (k : Nat) (hj : s.ths[j]? = some t)
      (hpc : t.pc = .move k) (hl : t.ls = l :: rest) (he : fio.torInfo.flist[l.fidx]? = some e) (hc : s.closed e.base.localPath = true)
      (hk : k < l.loc.readAmnt.toNat) :
      Step fio faulty s ⟨s.sh.release t.write e.base.localPath, s.closed, s.ths.set j { t with pc := .done (.err .os) }, s.cls⟩
  /-- a step of `Close` or `CloseAll` -/
  | closing (s : St) (j : Nat) (c c' : Closer) (sh' : Shared) (cl' : Bytes → Bool) (hj : s.cls[j]? = some c)
      (h : CTStep fio faulty s.sh s.closed c sh' cl' c') : Step fio faulty s ⟨sh', cl', s.ths, s.cls.set j c'⟩

/-- nothing has been done yet: all files are open, no lock is held -/
def init (H : Bytes → Bytes) (ti : TorInfo) (fs : FS.State) (calls : List Call) (closings : List Closing) : St :=
  ⟨⟨fs, fun _ => 0, fun _ => false⟩, fun _ => false, calls.map (start H ti), closings.map begin⟩

end Verif.FileClose
