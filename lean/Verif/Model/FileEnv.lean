import Verif.Model.FileConc
/-
Model of concurrent calls of `ReadPiece` and `WritePiece` (/repo/src/torrent/fileio/fileio.go:119-189) while other programs change the files.
The locks of fileio.go:26-29 are the client's own: other programs do not look at them, so the files can change between any two steps, in
particular between two of the system calls that one `ReadAt` or `WriteAt` makes.
-/
set_option autoImplicit false

namespace Verif.FileEnv
open Verif.Files Verif.FS Verif.FileIO

/-- the goroutines, the files and the locks (`FileConc`); in addition, for the statements, all states of the files so far (the present one is the
last) and the number of steps the client has made -/
structure St where
  st : FileConc.St
  past : List FS.State
  steps : Nat

/-- Steps: one of the client's goroutines goes on (fileio.go:119-189), or other programs put anything in place of the files.  `none` for the
path of an open file means that the system calls on its handle fail. -/
inductive Step (fio : FileIO) (faulty : Bool) : St → St → Prop
  /-- fileio.go:119-189 -/
  | work (s : St) (st' : FileConc.St) (h : FileConc.Step fio faulty s.st st') :
      Step fio faulty s ⟨st', s.past ++ [st'.sh.fs], s.steps + 1⟩
  /-- other programs -/
  | other (s : St) (fs : FS.State) :
      Step fio faulty s ⟨⟨{ s.st.sh with fs := fs }, s.st.ths⟩, s.past ++ [fs], s.steps⟩

/-- nothing has been done yet, no lock is held -/
def init (H : Bytes → Bytes) (ti : TorInfo) (fs : FS.State) (calls : List FileConc.Call) : St :=
  ⟨FileConc.init H ti fs calls, [fs], 0⟩

end Verif.FileEnv
