import Verif.Model.FileIO
/-
Model of concurrent calls of `ReadPiece` and `WritePiece` (/repo/src/torrent/fileio/fileio.go) by any number of goroutines, as a
transition system.  The torrent's metadata and the map `lfps` do not change after start-up.

Steps are the operations on the lock of a file and the transfer of some bytes: `os.File.ReadAt` and `WriteAt` make as many system calls
as they need, each of which moves some of the bytes, so other goroutines can run in between.  Calls may start at any time: the first step of
a goroutine of the initial list can come arbitrarily late.

A `sync.RWMutex` is modelled as a number of readers and a flag that is set by the first part of `Lock` (it keeps out new readers and other
writers) and cleared by `Unlock`; the second part of `Lock` waits until there are no readers.
-/
set_option autoImplicit false

namespace Verif.FileConc
open Verif.Files Verif.FS Verif.FileIO

/-- where a goroutine is in `ReadPiece` / `WritePiece` -/
inductive Pc where
  /-- at the head of the loop: fileio.go:153, fileio.go:179 -/
  | top
  /-- in `lock.Lock()`, the flag is set: fileio.go:124 -/
  | pending
  /-- holds the lock, `k` bytes were transferred: fileio.go:126, fileio.go:138 -/
  | move (k : Nat)
  /-- returned -/
  | done (r : Res Nat)
  deriving DecidableEq

/-- a goroutine in `ReadPiece` (fileio.go:145-163) or `WritePiece` (fileio.go:165-189) -/
structure Th where
  write : Bool
  /-- reads: the buffer; writes: the data up to its capacity -/
  buf : Bytes
  /-- the locations that are left: `range plocs` -/
  ls : List PieceLocation
  /-- `offset` -/
  off : Nat
  pc : Pc
  deriving DecidableEq

/-- fileio.go:145-152: what `ReadPiece` does before its loop -/
def startRead (ti : TorInfo) (index : Int) (buf : Bytes) : Th :=
  match ti.PieceLookup index with
  | .ok plocs => ⟨false, buf, plocs, 0, .top⟩
  | .err e => ⟨false, buf, [], 0, .done (.err e)⟩
  | .panic => ⟨false, buf, [], 0, .done .panic⟩
  | .timeout => ⟨false, buf, [], 0, .done .timeout⟩

/-- fileio.go:165-178: what `WritePiece` does before its loop -/
def startWrite (H : Bytes → Bytes) (ti : TorInfo) (index : Int) (data spare : Bytes) : Th :=
  match ti.PieceLookup index with
  | .ok plocs =>
    match ti.PieceHash index with
    | .ok knownHash =>
      if H data ≠ knownHash then ⟨true, data ++ spare, [], 0, .done (.err .other)⟩
      else ⟨true, data ++ spare, plocs, 0, .top⟩
    | .err e => ⟨true, data ++ spare, [], 0, .done (.err e)⟩
    | .panic => ⟨true, data ++ spare, [], 0, .done .panic⟩
    | .timeout => ⟨true, data ++ spare, [], 0, .done .timeout⟩
  | .err e => ⟨true, data ++ spare, [], 0, .done (.err e)⟩
  | .panic => ⟨true, data ++ spare, [], 0, .done .panic⟩
  | .timeout => ⟨true, data ++ spare, [], 0, .done .timeout⟩

/-- what the goroutines share: the files, and the lock of each file (fileio.go:26-29) -/
structure Shared where
  fs : FS.State
  readers : Bytes → Nat
  writer : Bytes → Bool

/-- `RLock` -/
def Shared.rlock (s : Shared) (p : Bytes) : Shared := { s with readers := fun q => if q = p then s.readers q + 1 else s.readers q }
/-- `RUnlock` -/
def Shared.runlock (s : Shared) (p : Bytes) : Shared := { s with readers := fun q => if q = p then s.readers q - 1 else s.readers q }
/-- first part of `Lock` -/
def Shared.announce (s : Shared) (p : Bytes) : Shared := { s with writer := fun q => if q = p then true else s.writer q }
/-- `Unlock` -/
def Shared.unlock (s : Shared) (p : Bytes) : Shared := { s with writer := fun q => if q = p then false else s.writer q }
/-- the deferred unlock: fileio.go:125, fileio.go:137 -/
def Shared.release (s : Shared) (w : Bool) (p : Bytes) : Shared := if w then s.unlock p else s.runlock p

/-- the slice expression of fileio.go:154, fileio.go:180 does not panic -/
def sliceOk (t : Th) (l : PieceLocation) : Prop := 0 ≤ l.loc.readAmnt ∧ (t.off : Int) + l.loc.readAmnt ≤ t.buf.length

/-- Steps of one goroutine.  If `faulty`, system calls can fail. -/
inductive TStep (fio : FileIO) (faulty : Bool) : Shared → Th → Shared → Th → Prop
  /-- fileio.go:162, fileio.go:188: the end of the loop -/
  | finish (s : Shared) (t : Th) (hpc : t.pc = .top) (hl : t.ls = []) :
      TStep fio faulty s t s { t with pc := .done (.ok t.off) }
  /-- fileio.go:154, fileio.go:180: the slice expression panics -/
  | slice (s : Shared) (t : Th) (l : PieceLocation) (rest : List PieceLocation) (hpc : t.pc = .top) (hl : t.ls = l :: rest)
      (h : ¬ sliceOk t l) : TStep fio faulty s t s { t with pc := .done .panic }
  /-- a location without file; in Go the location has a pointer to the file's entry -/
  | noEntry (s : Shared) (t : Th) (l : PieceLocation) (rest : List PieceLocation) (hpc : t.pc = .top) (hl : t.ls = l :: rest)
      (h : sliceOk t l) (he : fio.torInfo.flist[l.fidx]? = none) : TStep fio faulty s t s { t with pc := .done .panic }
  /-- fileio.go:129, fileio.go:141: the file is not open -/
  | noPath (s : Shared) (t : Th) (l : PieceLocation) (rest : List PieceLocation) (e : Entry) (hpc : t.pc = .top) (hl : t.ls = l :: rest)
      (h : sliceOk t l) (he : fio.torInfo.flist[l.fidx]? = some e) (ho : e.base.localPath ∉ fio.opened) :
      TStep fio faulty s t s { t with pc := .done (.err .path) }
  /-- fileio.go:136 -/
  | rlock (s : Shared) (t : Th) (l : PieceLocation) (rest : List PieceLocation) (e : Entry) (hpc : t.pc = .top) (hl : t.ls = l :: rest)
      (h : sliceOk t l) (he : fio.torInfo.flist[l.fidx]? = some e) (ho : e.base.localPath ∈ fio.opened) (hw : t.write = false)
      (hfree : s.writer e.base.localPath = false) :
      TStep fio faulty s t (s.rlock e.base.localPath) { t with pc := .move 0 }
  /-- fileio.go:124, first part -/
  | announce (s : Shared) (t : Th) (l : PieceLocation) (rest : List PieceLocation) (e : Entry) (hpc : t.pc = .top) (hl : t.ls = l :: rest)
      (h : sliceOk t l) (he : fio.torInfo.flist[l.fidx]? = some e) (ho : e.base.localPath ∈ fio.opened) (hw : t.write = true)
      (hfree : s.writer e.base.localPath = false) :
      TStep fio faulty s t (s.announce e.base.localPath) { t with pc := .pending }
  /-- fileio.go:124, second part -/
  | lock (s : Shared) (t : Th) (l : PieceLocation) (rest : List PieceLocation) (e : Entry) (hpc : t.pc = .pending) (hl : t.ls = l :: rest)
      (he : fio.torInfo.flist[l.fidx]? = some e) (hfree : s.readers e.base.localPath = 0) :
      TStep fio faulty s t s { t with pc := .move 0 }
  /-- fileio.go:138: `ReadAt` gets some bytes -/
  | get (s : Shared) (t : Th) (l : PieceLocation) (rest : List PieceLocation) (e : Entry) (k m : Nat) (c : Bytes)
      (hpc : t.pc = .move k) (hl : t.ls = l :: rest) (he : fio.torInfo.flist[l.fidx]? = some e) (hw : t.write = false)
      (hc : s.fs e.base.localPath = some c) (hs : 0 ≤ l.loc.seekAmnt) (hm : 0 < m) (hk : k + m ≤ l.loc.readAmnt.toNat)
      (hlen : l.loc.seekAmnt.toNat + k + m ≤ c.length) :
      TStep fio faulty s t s
        { t with buf := overwrite t.buf (t.off + k) ((c.drop (l.loc.seekAmnt.toNat + k)).take m), pc := .move (k + m) }
  /-- fileio.go:126: `WriteAt` writes some bytes -/
  | put (s : Shared) (t : Th) (l : PieceLocation) (rest : List PieceLocation) (e : Entry) (k m : Nat) (c : Bytes)
      (hpc : t.pc = .move k) (hl : t.ls = l :: rest) (he : fio.torInfo.flist[l.fidx]? = some e) (hw : t.write = true)
      (hc : s.fs e.base.localPath = some c) (hs : 0 ≤ l.loc.seekAmnt) (hm : 0 < m) (hk : k + m ≤ l.loc.readAmnt.toNat) :
      TStep fio faulty s t
        { s with fs := s.fs.set e.base.localPath (writeAt c (l.loc.seekAmnt.toNat + k) ((t.buf.drop (t.off + k)).take m)) }
        { t with pc := .move (k + m) }
  /-- fileio.go:138: `ReadAt` reaches the end of the file too early -/
  | eof (s : Shared) (t : Th) (l : PieceLocation) (rest : List PieceLocation) (e : Entry) (k : Nat) (c : Bytes)
      (hpc : t.pc = .move k) (hl : t.ls = l :: rest) (he : fio.torInfo.flist[l.fidx]? = some e) (hw : t.write = false)
      (hc : s.fs e.base.localPath = some c) (hs : 0 ≤ l.loc.seekAmnt) (hk : k < l.loc.readAmnt.toNat)
      (hlen : c.length ≤ l.loc.seekAmnt.toNat + k) :
      TStep fio faulty s t (s.release t.write e.base.localPath) { t with pc := .done (.err .eof) }
  /-- `ReadAt` and `WriteAt` refuse negative offsets -/
  | negative (s : Shared) (t : Th) (l : PieceLocation) (rest : List PieceLocation) (e : Entry) (k : Nat)
      (hpc : t.pc = .move k) (hl : t.ls = l :: rest) (he : fio.torInfo.flist[l.fidx]? = some e)
      (hs : l.loc.seekAmnt < 0 ∨ s.fs e.base.localPath = none) :
      TStep fio faulty s t (s.release t.write e.base.localPath) { t with pc := .done (.err .os) }
  /-- a system call fails: fileio.go:156-158, fileio.go:182-184 -/
  | fail (s : Shared) (t : Th) (l : PieceLocation) (rest : List PieceLocation) (e : Entry) (k : Nat) (hf : faulty = true)
      (hpc : t.pc = .move k) (hl : t.ls = l :: rest) (he : fio.torInfo.flist[l.fidx]? = some e) :
      TStep fio faulty s t (s.release t.write e.base.localPath) { t with pc := .done (.err .os) }
  /-- the transfer is complete, the lock is released, `offset += n`: fileio.go:159, fileio.go:185 -/
  | release (s : Shared) (t : Th) (l : PieceLocation) (rest : List PieceLocation) (e : Entry) (k : Nat) (c : Bytes)
      (hpc : t.pc = .move k) (hl : t.ls = l :: rest) (he : fio.torInfo.flist[l.fidx]? = some e)
      (hc : s.fs e.base.localPath = some c) (hs : 0 ≤ l.loc.seekAmnt) (hk : l.loc.readAmnt.toNat ≤ k) :
      TStep fio faulty s t (s.release t.write e.base.localPath)
        { t with ls := rest, off := t.off + l.loc.readAmnt.toNat, pc := .top }

/-- all goroutines -/
structure St where
  sh : Shared
  ths : List Th

/-- one goroutine makes a step -/
inductive Step (fio : FileIO) (faulty : Bool) : St → St → Prop
  | mk (s : St) (j : Nat) (t t' : Th) (sh' : Shared) (hj : s.ths[j]? = some t) (h : TStep fio faulty s.sh t sh' t') :
      Step fio faulty s ⟨sh', s.ths.set j t'⟩

/-- the calls -/
inductive Call where
  | read (index : Int) (buf : Bytes)
  | write (index : Int) (data spare : Bytes)
  deriving DecidableEq

/-- a goroutine at the beginning of a call -/
def start (H : Bytes → Bytes) (ti : TorInfo) : Call → Th
  | .read i buf => startRead ti i buf
  | .write i d spare => startWrite H ti i d spare

/-- nothing has been done yet, no lock is held -/
def init (H : Bytes → Bytes) (ti : TorInfo) (fs : FS.State) (calls : List Call) : St :=
  ⟨⟨fs, fun _ => 0, fun _ => false⟩, calls.map (start H ti)⟩

end Verif.FileConc
