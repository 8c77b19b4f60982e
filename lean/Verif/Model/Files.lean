import Verif.Model.Go
/-
Model of /repo/src/torrent/filesd/{entrybase.go, entry.go, flist.go} (layout part; the bencode conversions of
entrybase.go are in Model/Torrent.lean), /repo/src/torrent/info/{piecemap.go, piecelocation.go} and of
NewTorInfo / PieceLookup / PieceHash in /repo/src/torrent/info/info.go.

`int64` arithmetic is unbounded here: sums of file lengths that exceed 2^63 are outside of the model.
-/
set_option autoImplicit false

namespace Verif.Files

/-- entrybase.go:18-22 -/
structure EntryBase where
  length : Int
  torPath : Bytes
  localPath : Bytes
  deriving DecidableEq, Repr

/-- entrybase.go:46-52 `MakeFileEntry` -/
def MakeFileEntry (torPath : Bytes) (length : Int) : EntryBase := ⟨length, torPath, torPath⟩

/-- entrybase.go:39-41 `SetLocalPath` -/
def EntryBase.SetLocalPath (fe : EntryBase) (newPath : Bytes) : EntryBase := { fe with localPath := newPath }

/-- entrybase.go:108-121 `CalcNumPieces`: integer division by zero panics -/
def CalcNumPieces (files : List EntryBase) (pieceLen : Int) : Res Int :=
  if pieceLen = 0 then .panic
  else
    let l := (files.map EntryBase.length).sum
    .ok (l.tdiv pieceLen + (if l.tmod pieceLen > 0 then 1 else 0))

/-- entry.go:13-19 -/
structure Entry where
  base : EntryBase
  startPiece : Int
  endPiece : Int
  startOff : Int
  endOff : Int
  deriving DecidableEq, Repr

/-- flist.go:16-21: last piece and offset in it of a file of length `n` that starts at `(index, offset)` -/
def endOf (pl index offset n : Int) : Int × Int :=
  if offset + (n - 1).tmod pl ≥ pl then
    (index + (n - 1).tdiv pl + (offset + (n - 1).tmod pl).tdiv pl, (offset + (n - 1).tmod pl).tmod pl)
  else (index + (n - 1).tdiv pl, offset + (n - 1).tmod pl)

/-- flist.go:23-28: position behind the inclusive end position -/
def nextOf (pl : Int) (e : Int × Int) : Int × Int :=
  if e.2 + 1 = pl then (e.1 + 1, 0) else (e.1, e.2 + 1)

/-- flist.go:12-32: the loop of `MakeFileList` -/
def fileListLoop (pl : Int) : Int → Int → List EntryBase → List Entry
  | _, _, [] => []
  | index, offset, tfe :: rest =>
    ⟨tfe, index, (endOf pl index offset tfe.length).1, offset, (endOf pl index offset tfe.length).2⟩ ::
      fileListLoop pl (nextOf pl (endOf pl index offset tfe.length)).1
        (nextOf pl (endOf pl index offset tfe.length)).2 rest

/-- flist.go:5-35 `MakeFileList`: integer division by zero panics (if there is a file at all) -/
def MakeFileList (entries : List EntryBase) (pieceLen : Int) : Res (List Entry) :=
  if pieceLen = 0 ∧ entries ≠ [] then .panic else .ok (fileListLoop pieceLen 0 0 entries)

/-- flist.go:45-57: the loop of `GetFiles`; the state is `(hit, startIdx, n)`, `i` is the index of the head of
the list in the whole file list -/
def getFilesLoop (piece : Int) : Nat → Bool × Nat × Nat → List Entry → Bool × Nat × Nat
  | _, st, [] => st
  | i, st, fe :: rest =>
    if fe.startPiece > piece then st
    else if fe.startPiece ≤ piece ∧ fe.endPiece ≥ piece then
      getFilesLoop piece (i + 1) (true, (if st.1 then st.2.1 else i), st.2.2 + 1) rest
    else getFilesLoop piece (i + 1) st rest

/-- flist.go:39-60 `GetFiles` -/
def GetFiles (fl : List Entry) (piece : Int) : Res (List Entry) :=
  let st := getFilesLoop piece 0 (false, 0, 0) fl
  if st.2.1 + st.2.2 ≤ fl.length then .ok ((fl.drop st.2.1).take st.2.2) else .panic

/-- entry.go:25-28 -/
structure PieceInfo where
  seekAmnt : Int
  readAmnt : Int
  deriving DecidableEq, Repr

/-- entry.go:102-110: the loop that skips the pieces before `index`, run `k` times; returns
`(seekAmnt, cursorOff)` -/
def seekLoop (pl : Int) : Nat → Int × Int → Int × Int
  | 0, st => st
  | k + 1, st => seekLoop pl k (st.1 + (pl - st.2), 0)

/-- entry.go:64-127 `PieceInfo`: error outside of the file's pieces -/
def Entry.PieceInfo (few : Entry) (index pieceLen : Int) : Res PieceInfo :=
  if index < few.startPiece ∨ index > few.endPiece then .err .other
  else
    -- the loop runs until cursorIdx, which starts at startPiece and is incremented, equals index
    let st := seekLoop pieceLen (index - few.startPiece).toNat (0, few.startOff)
    if index < few.endPiece then .ok ⟨st.1, pieceLen - st.2⟩
    else .ok ⟨st.1, (few.endOff - st.2) + 1⟩

/-- piecelocation.go:5-8; the pointer `Entry` (`&fl[fidx]`, piecemap.go:36) is represented by the index into the
file list -/
structure PieceLocation where
  fidx : Nat
  loc : PieceInfo
  deriving DecidableEq, Repr

/-- the local variables of `MakePieceMap`: piecemap.go:15-19 -/
structure PMState where
  pm : List (List PieceLocation)
  pieceIdx : Int
  pieceRem : Int
  totalCounted : Int
  deriving DecidableEq, Repr

/-- piecemap.go:29-53: the inner loop for one file.  The first argument bounds the iterations: every iteration
that does not leave the loop increments `pieceIdx`, and the loop is left for `pieceIdx > EndPiece`, see
`pieceMapFile`. -/
def pieceMapInner : Nat → Nat → Entry → Int → PMState → Res PMState
  | 0, _, _, _, st => .ok st
  | fuel + 1, fidx, fe, pl, st =>
    match fe.PieceInfo st.pieceIdx pl with
    | .ok pinfo =>
      if st.pieceIdx < 0 then .panic
      else match st.pm[st.pieceIdx.toNat]? with
        | none => .panic
        | some locs =>
          if st.pieceRem - pinfo.readAmnt ≤ 0 then
            pieceMapInner fuel fidx fe pl
              ⟨st.pm.set st.pieceIdx.toNat (locs ++ [⟨fidx, pinfo⟩]), st.pieceIdx + 1, pl, st.totalCounted + pinfo.readAmnt⟩
          else
            .ok ⟨st.pm.set st.pieceIdx.toNat (locs ++ [⟨fidx, pinfo⟩]), st.pieceIdx, st.pieceRem - pinfo.readAmnt,
              st.totalCounted + pinfo.readAmnt⟩
    | _ => .ok st

/-- piecemap.go:27-53 with a number of iterations that always suffices: from `pieceIdx` to `EndPiece` and one more -/
def pieceMapFile (fidx : Nat) (fe : Entry) (pl : Int) (st : PMState) : Res PMState :=
  pieceMapInner ((fe.endPiece - st.pieceIdx).toNat + 2) fidx fe pl st

/-- piecemap.go:21-55: the loop over the files -/
def pieceMapLoop (npieces pl : Int) : Nat → List Entry → PMState → Res PMState
  | _, [], st => .ok st
  | fidx, fe :: rest, st =>
    if st.pieceIdx = npieces then .ok st
    else do
      let st' ← pieceMapFile fidx fe pl st
      pieceMapLoop npieces pl (fidx + 1) rest st'

/-- piecemap.go:13-62 `MakePieceMap`; `npieces` is a length divided by 20, hence not negative -/
def MakePieceMap (fl : List Entry) (npieces : Nat) (pl totalLen : Int) : Res (List (List PieceLocation)) := do
  let st ← pieceMapLoop npieces pl 0 fl ⟨List.replicate npieces [], 0, pl, 0⟩
  if st.totalCounted ≠ totalLen then .err .other else .ok st.pm

/-- info.go:29-40 -/
structure TorInfo where
  name : Bytes
  pieceLen : Int
  hashes : Bytes
  numPieces : Nat
  length : Int
  flist : List Entry
  isSingle : Bool
  pm : List (List PieceLocation)
  lastPieceLen : Int
  deriving DecidableEq, Repr

/-- info.go:157-192 `NewTorInfo` -/
def NewTorInfo (name : Bytes) (pieceLen : Int) (hashes : Bytes) (files : List EntryBase) : Res TorInfo :=
  if hashes.length % 20 ≠ 0 then .err .other
  else do
    let flist ← MakeFileList files pieceLen
    let pm ← MakePieceMap flist (hashes.length / 20) pieceLen (files.map EntryBase.length).sum
    .ok {
      name := name, pieceLen := pieceLen, hashes := hashes, numPieces := hashes.length / 20,
      length := (files.map EntryBase.length).sum, flist := flist, isSingle := files.length = 1, pm := pm,
      lastPieceLen := pieceLen - (((hashes.length / 20 : Nat) : Int) * pieceLen - (files.map EntryBase.length).sum) }

/-- info.go:252-255 `PieceHash`: slice expression on a string -/
def TorInfo.PieceHash (ti : TorInfo) (idx : Int) : Res Bytes :=
  if idx * 20 < 0 ∨ idx * 20 + 20 > ti.hashes.length then .panic
  else .ok ((ti.hashes.drop (idx * 20).toNat).take 20)

/-- info.go:283-294 `PieceLookup` -/
def TorInfo.PieceLookup (ti : TorInfo) (index : Int) : Res (List PieceLocation) :=
  if index < 0 then .err .other
  else if index ≥ ti.numPieces then .err .other
  else match ti.pm[index.toNat]? with
    | none => .panic
    | some locs => .ok locs

end Verif.Files
