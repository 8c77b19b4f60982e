import Verif.Model.Files
/-
The functions of Model/Files.lean once more, with the wrap-around of Go's `int64`.  Model/Files.lean computes with unbounded integers;
C73 says when that makes no difference.  `wrap64` is applied to the result of every addition, subtraction, multiplication and division.
-/
set_option autoImplicit false

namespace Verif.Files64
open Verif.Files

/-- info.go:163-167: the sum of the lengths -/
def sum64 : Int → List EntryBase → Int
  | l, [] => l
  | l, f :: fs => sum64 (wrap64 (l + f.length)) fs

/-- entrybase.go:108-121 `CalcNumPieces` -/
def CalcNumPieces (files : List EntryBase) (pieceLen : Int) : Res Int :=
  if pieceLen = 0 then .panic
  else .ok (if (sum64 0 files).tmod pieceLen > 0 then wrap64 (wrap64 ((sum64 0 files).tdiv pieceLen) + 1)
    else wrap64 ((sum64 0 files).tdiv pieceLen))

/-- flist.go:16-21 -/
def endOf (pl index offset n : Int) : Int × Int :=
  if wrap64 (offset + (wrap64 (n - 1)).tmod pl) ≥ pl then
    (wrap64 (wrap64 (index + wrap64 ((wrap64 (n - 1)).tdiv pl)) + wrap64 ((wrap64 (offset + (wrap64 (n - 1)).tmod pl)).tdiv pl)),
      (wrap64 (offset + (wrap64 (n - 1)).tmod pl)).tmod pl)
  else (wrap64 (index + wrap64 ((wrap64 (n - 1)).tdiv pl)), wrap64 (offset + (wrap64 (n - 1)).tmod pl))

/-- flist.go:23-28 -/
def nextOf (pl : Int) (e : Int × Int) : Int × Int :=
  if wrap64 (e.2 + 1) = pl then (wrap64 (e.1 + 1), 0) else (e.1, wrap64 (e.2 + 1))

/-- flist.go:12-32 -/
def fileListLoop (pl : Int) : Int → Int → List EntryBase → List Entry
  | _, _, [] => []
  | index, offset, tfe :: rest =>
    ⟨tfe, index, (endOf pl index offset tfe.length).1, offset, (endOf pl index offset tfe.length).2⟩ ::
      fileListLoop pl (nextOf pl (endOf pl index offset tfe.length)).1
        (nextOf pl (endOf pl index offset tfe.length)).2 rest

/-- flist.go:5-35 `MakeFileList` -/
def MakeFileList (entries : List EntryBase) (pieceLen : Int) : Res (List Entry) :=
  if pieceLen = 0 ∧ entries ≠ [] then .panic else .ok (fileListLoop pieceLen 0 0 entries)

/-- entry.go:102-110 -/
def seekLoop (pl : Int) : Nat → Int × Int → Int × Int
  | 0, st => st
  | k + 1, st => seekLoop pl k (wrap64 (st.1 + wrap64 (pl - st.2)), 0)

/-- entry.go:64-127 `PieceInfo`; the loop counter starts at `startPiece ≤ index` and does not wrap -/
def PieceInfo (few : Entry) (index pieceLen : Int) : Res PieceInfo :=
  if index < few.startPiece ∨ index > few.endPiece then .err .other
  else if index < few.endPiece then
    .ok ⟨(seekLoop pieceLen (index - few.startPiece).toNat (0, few.startOff)).1,
      wrap64 (pieceLen - (seekLoop pieceLen (index - few.startPiece).toNat (0, few.startOff)).2)⟩
  else
    .ok ⟨(seekLoop pieceLen (index - few.startPiece).toNat (0, few.startOff)).1,
      wrap64 (wrap64 (few.endOff - (seekLoop pieceLen (index - few.startPiece).toNat (0, few.startOff)).2) + 1)⟩

/-- piecemap.go:29-53; `pieceIdx` is at most the number of hashes and does not wrap.  Bound on the iterations as in
`Verif.Files.pieceMapInner`. -/
def pieceMapInner : Nat → Nat → Entry → Int → PMState → Res PMState
  | 0, _, _, _, st => .ok st
  | fuel + 1, fidx, fe, pl, st =>
    match PieceInfo fe st.pieceIdx pl with
    | .ok pinfo =>
      if st.pieceIdx < 0 then .panic
      else match st.pm[st.pieceIdx.toNat]? with
        | none => .panic
        | some locs =>
          if wrap64 (st.pieceRem - pinfo.readAmnt) ≤ 0 then
            pieceMapInner fuel fidx fe pl
              ⟨st.pm.set st.pieceIdx.toNat (locs ++ [⟨fidx, pinfo⟩]), st.pieceIdx + 1, pl, wrap64 (st.totalCounted + pinfo.readAmnt)⟩
          else
            .ok ⟨st.pm.set st.pieceIdx.toNat (locs ++ [⟨fidx, pinfo⟩]), st.pieceIdx, wrap64 (st.pieceRem - pinfo.readAmnt),
              wrap64 (st.totalCounted + pinfo.readAmnt)⟩
    | _ => .ok st

/-- piecemap.go:27-53 -/
def pieceMapFile (fidx : Nat) (fe : Entry) (pl : Int) (st : PMState) : Res PMState :=
  pieceMapInner ((fe.endPiece - st.pieceIdx).toNat + 2) fidx fe pl st

/-- piecemap.go:21-55 -/
def pieceMapLoop (npieces pl : Int) : Nat → List Entry → PMState → Res PMState
  | _, [], st => .ok st
  | fidx, fe :: rest, st =>
    if st.pieceIdx = npieces then .ok st
    else do
      let st' ← pieceMapFile fidx fe pl st
      pieceMapLoop npieces pl (fidx + 1) rest st'

/-- piecemap.go:13-62 `MakePieceMap` -/
def MakePieceMap (fl : List Entry) (npieces : Nat) (pl totalLen : Int) : Res (List (List PieceLocation)) := do
  let st ← pieceMapLoop npieces pl 0 fl ⟨List.replicate npieces [], 0, pl, 0⟩
  if st.totalCounted ≠ totalLen then .err .other else .ok st.pm

/-- info.go:157-192 `NewTorInfo` -/
def NewTorInfo (name : Bytes) (pieceLen : Int) (hashes : Bytes) (files : List EntryBase) : Res TorInfo :=
  if hashes.length % 20 ≠ 0 then .err .other
  else do
    let flist ← MakeFileList files pieceLen
    let pm ← MakePieceMap flist (hashes.length / 20) pieceLen (sum64 0 files)
    .ok {
      name := name, pieceLen := pieceLen, hashes := hashes, numPieces := hashes.length / 20,
      length := sum64 0 files, flist := flist, isSingle := files.length = 1, pm := pm,
      lastPieceLen := wrap64 (pieceLen - wrap64 (wrap64 (((hashes.length / 20 : Nat) : Int) * pieceLen) - sum64 0 files)) }

end Verif.Files64
