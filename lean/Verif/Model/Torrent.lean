import Verif.Model.Files
import Verif.Model.Bencode
import Verif.Model.Path
/-
Model of /repo/src/torrent/torrent.go, of FromDict and Bencode in /repo/src/torrent/info/info.go and of the bencode
conversions in /repo/src/torrent/filesd/entrybase.go.  Printing (`String`) is not modelled.
-/
set_option autoImplicit false

namespace Verif.Torrent
open Verif.Files Verif.Bencode Verif.Path

/-- entrybase.go:76-83: the path elements, each followed by '/' -/
def pathLoop : List Value → Bytes → Res Bytes
  | [], strb => .ok strb
  | .str s :: vs, strb => pathLoop vs (strb ++ s ++ [47])
  | _ :: _, _ => .err .other

/-- entrybase.go:58-87: one entry; `[:l-1]` panics for an empty path list -/
def benEntry (v : Value) : Res EntryBase :=
  match v with
  | .dict fDict => do
    let fLen ← Dict.getInt fDict (ascii "length")
    let fPathList ← Dict.getList fDict (ascii "path")
    let strb ← pathLoop fPathList []
    if strb = [] then .panic else .ok (MakeFileEntry (strb.take (strb.length - 1)) fLen)
  | _ => .err .other

/-- entrybase.go:54-91 `FromBenList` -/
def FromBenList : List Value → Res (List EntryBase)
  | [] => .ok []
  | v :: vs => do
    let e ← benEntry v
    let es ← FromBenList vs
    .ok (e :: es)

/-- entrybase.go:93-106 `Bencode` -/
def benDict (fe : EntryBase) : Dict :=
  [(ascii "length", .int64 fe.length), (ascii "path", .list ((splitSlash fe.torPath).map Value.str))]

/-- info.go:213-244: the file entries of an info dictionary, with their local paths -/
def entriesOf (info : Dict) (name workingDir : Bytes) : Res (List EntryBase) :=
  match Dict.getInt info (ascii "length") with
  | .ok length => .ok [(MakeFileEntry name length).SetLocalPath (Join workingDir name)]
  | .err _ =>
    match Dict.getList info (ascii "files") with
    | .ok files => do
      let fentries ← FromBenList files
      .ok (fentries.map fun fe => fe.SetLocalPath (Join (Join workingDir name) fe.torPath))
    | .err _ => .err .metadata
    | .panic => .panic
    | .timeout => .timeout
  | .panic => .panic
  | .timeout => .timeout

/-- info.go:196-247 `FromDict` -/
def FromDict (info : Dict) (workingDir : Bytes) : Res TorInfo := do
  let name ← Dict.getString info (ascii "name")
  let pieceLen ← Dict.getInt info (ascii "piece length")
  let hashes ← Dict.getString info (ascii "pieces")
  let fentries ← entriesOf info name workingDir
  NewTorInfo name pieceLen hashes fentries

/-- info.go:257-281 `Bencode` -/
def benInfo (ti : TorInfo) : Dict :=
  [(ascii "name", .str ti.name), (ascii "piece length", .int64 ti.pieceLen), (ascii "pieces", .str ti.hashes),
   (ascii "private", .int64 0),
   if ti.isSingle then (ascii "length", .int64 ti.length)
   else (ascii "files", .list (ti.flist.map fun e => .dict (benDict e.base)))]

/-- torrent.go:27-31 -/
structure Torrent where
  infohash : Bytes
  announce : Bytes
  info : TorInfo
  deriving DecidableEq

/-- torrent.go:51-66 `NewTorrent` -/
def NewTorrent (H : Bytes → Bytes) (info : TorInfo) (announce : Bytes) : Res Torrent :=
  match Encode (.dict (benInfo info)) with
  | (encoded, none) => .ok ⟨H encoded, announce, info⟩
  | (_, some e) => .err e

/-- torrent.go:70-111 `FromTorrentFile`; `fdata` is what `os.ReadFile` returns (`none`: an error) and `spare` the bytes
between length and capacity of the returned slice.  The error of `Encode` is ignored. -/
def FromTorrentFile (H : Bytes → Bytes) (fdata : Option Bytes) (spare workingDir : Bytes) : Res Torrent :=
  match fdata with
  | none => .err .os
  | some data => do
    let d ← Decode data spare
    match d with
    | .dict dict => do
      let announce ← Dict.getString dict (ascii "announce")
      let infodict ← Dict.getDict dict (ascii "info")
      let torInfo ← FromDict infodict workingDir
      .ok ⟨H (Encode (.dict infodict)).1, announce, torInfo⟩
    | _ => .err .metadata

end Verif.Torrent
