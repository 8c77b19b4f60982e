import Verif.Model.FS
import Verif.Model.Files
import Verif.Model.Path
import Verif.Model.Utils
/-
Model of CreateTorInfo, /repo/src/torrent/info/info.go:80-155.
-/
set_option autoImplicit false

namespace Verif.Create
open Verif.Files Verif.FS Verif.Path Verif.Utils

/-- info.go:84 -/
def maxBuf : Int := 5242880

/-- what the loop over the files carries along: number of `Read` calls so far, `buf[:buflen]`, the hashes.  The
bytes of `buf` behind `buflen` are never looked at. -/
structure St where
  t : Nat
  acc : Bytes
  hashes : Bytes
  deriving DecidableEq

/-- info.go:116-139: read one file.  `reads t` says how the `t`-th call of `Read` behaves: `none` = error, `some n` = it
delivers at most `n` bytes (at least one, if there is anything to deliver and space for it).  The file is not changed while it
is read.  The first argument bounds the number of `Read` calls. -/
def readFile (H : Bytes → Bytes) (reads : Nat → Option Nat) (pieceLen bufSize : Int) :
    Nat → Bytes → St → Res St
  | 0, _, _ => .timeout
  | fuel + 1, rest, st =>
    match reads st.t with
    | none => .err .os
    | some n =>
      -- `Read` of an empty slice returns 0, nil; at the end of the file it returns io.EOF
      if (st.acc.length : Int) = bufSize then do
        let pieces ← SegmentData st.acc pieceLen
        readFile H reads pieceLen bufSize fuel rest ⟨st.t + 1, [], st.hashes ++ HashSlices H pieces⟩
      else if rest = [] then .ok { st with t := st.t + 1 }
      else
        if ((st.acc ++ rest.take (max 1 (min n (bufSize - st.acc.length).toNat))).length : Int) = bufSize then do
          let pieces ← SegmentData (st.acc ++ rest.take (max 1 (min n (bufSize - st.acc.length).toNat))) pieceLen
          readFile H reads pieceLen bufSize fuel (rest.drop (max 1 (min n (bufSize - st.acc.length).toNat)))
            ⟨st.t + 1, [], st.hashes ++ HashSlices H pieces⟩
        else readFile H reads pieceLen bufSize fuel (rest.drop (max 1 (min n (bufSize - st.acc.length).toNat)))
          ⟨st.t + 1, st.acc ++ rest.take (max 1 (min n (bufSize - st.acc.length).toNat)), st.hashes⟩

/-- info.go:98-145: the loop over the files.  Closing a file never fails here. -/
def fileLoop (H : Bytes → Bytes) (reads : Nat → Option Nat) (fs : State) (workingDir : Bytes) (pieceLen bufSize : Int)
    (fuel : Nat) : List Bytes → List EntryBase → St → Res (List EntryBase × St)
  | [], fentries, st => .ok (fentries, st)
  | fpath :: rest, fentries, st =>
    match fs (Join workingDir fpath) with
    | none => .err .os
    | some c => do
      let st' ← readFile H reads pieceLen bufSize fuel c st
      fileLoop H reads fs workingDir pieceLen bufSize fuel rest
        (fentries ++ [(MakeFileEntry fpath c.length).SetLocalPath (Join workingDir fpath)]) st'

/-- info.go:94-96 -/
def baseDir (paths : List Bytes) (workingDir name : Bytes) : Bytes :=
  if 1 < paths.length then Join workingDir name else workingDir

/-- info.go:80-155 `CreateTorInfo`; `fuel` bounds the number of `Read` calls per file -/
def CreateTorInfo (H : Bytes → Bytes) (reads : Nat → Option Nat) (fs : State) (fuel : Nat)
    (paths : List Bytes) (workingDir name : Bytes) (pieceLen : Int) : Res TorInfo :=
  if pieceLen = 0 then .panic
  else do
    let (fentries, st) ← fileLoop H reads fs (baseDir paths workingDir name) pieceLen (maxBuf.tdiv pieceLen * pieceLen)
      fuel paths [] ⟨0, [], []⟩
    let pieces ← SegmentData st.acc pieceLen
    NewTorInfo name pieceLen (st.hashes ++ HashSlices H pieces) fentries

end Verif.Create
