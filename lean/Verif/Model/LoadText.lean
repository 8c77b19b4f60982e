import Verif.Model.Torrent
import Verif.Model.DecodeText
/-
Model of what is said about a torrent file that is refused: the functions of Model/Torrent.lean (/repo/src/torrent/torrent.go, info/info.go,
info/piecemap.go, filesd/entrybase.go and the getters of /repo/src/bencode/dict.go) with the error values they return, and the methods `Error` of
these.  `Props/LoadText.lean` proves that they agree with Model/Torrent.lean.

Numbers are unbounded as in Model/Files.lean.
-/
set_option autoImplicit false

namespace Verif.LoadText
open Verif.Bencode Verif.Files Verif.Torrent Verif.Path

/-! ### The format of `fmt.Errorf` without arguments -/

/-- the flags of a directive of `fmt`: `#`, `0`, `+`, `-` and the blank -/
def isFlag (c : UInt8) : Bool := c = 35 || c = 48 || c = 43 || c = 45 || c = 32

/-- `parsenum` of `fmt`: is there a number, and what is behind it; nothing is left behind one that is too large -/
def parseNum : Nat → Bool → Bytes → Bool × Bytes
  | _, seen, [] => (seen, [])
  | n, seen, c :: r => if isDigit c then (if n > 1000000 then (false, []) else parseNum (10 * n + (c.toNat - 48)) true r) else (seen, c :: r)

/-- what `argNumber` of `fmt` finds if there are no arguments: may the directive still refer to an argument, was there a well-formed index, and
what is behind it (`parseArgNumber`) -/
def argNumber (s : Bytes) : Bool × Bool × Bytes :=
  match s with
  | 91 :: r =>
    if r.length < 2 then (false, false, r)
    else match r.dropWhile (· ≠ 93) with
      | [] => (false, false, r)
      | _ :: r' => (false, (match parseNum 0 false (r.takeWhile (· ≠ 93)) with | (true, []) => true | _ => false), r')
  | _ => (true, false, s)

/-- is this a continuation byte of UTF-8? -/
def isCont (c : UInt8) : Bool := 128 ≤ c && c ≤ 191

/-- `utf8.DecodeRuneInString`: the verb as it is written again, and the rest; an invalid byte becomes U+FFFD -/
def verbOf : Bytes → Bytes × Bytes
  | [] => ([], [])
  | a :: r =>
    if a < 128 then ([a], r)
    else match r with
      | [] => ([239, 191, 189], r)
      | b :: r2 =>
        if 194 ≤ a ∧ a ≤ 223 ∧ isCont b then ([a, b], r2)
        else match r2 with
          | [] => ([239, 191, 189], r)
          | c :: r3 =>
            if 224 ≤ a ∧ a ≤ 239 ∧ isCont b ∧ isCont c ∧ (a = 224 → 160 ≤ b) ∧ (a = 237 → b ≤ 159) then ([a, b, c], r3)
            else match r3 with
              | [] => ([239, 191, 189], r)
              | d :: r4 =>
                if 240 ≤ a ∧ a ≤ 244 ∧ isCont b ∧ isCont c ∧ isCont d ∧ (a = 240 → 144 ≤ b) ∧ (a = 244 → b ≤ 143) then ([a, b, c, d], r4)
                else ([239, 191, 189], r)

/-- the width of a directive: what is written, may it still refer to an argument, is an index the last thing seen, and the rest -/
def width (found : Bool) (s : Bytes) : Bytes × Bool × Bool × Bytes :=
  match s with
  | 42 :: r => (ascii "%!(BADWIDTH)", true, false, r)
  | _ => ([], !(found && (parseNum 0 false s).1), found, (parseNum 0 false s).2)

/-- the same for the precision -/
def precision (found : Bool) (s : Bytes) : Bytes × Bool × Bool × Bytes :=
  match s with
  | 46 :: r =>
    match (argNumber r).2.2 with
    | 42 :: r' => (ascii "%!(BADPREC)", !found && (argNumber r).1, false, r')
    | t => ([], !found && (argNumber r).1, (argNumber r).2.1, (parseNum 0 false t).2)
  | _ => ([], true, found, s)

/-- the verb -/
def verb (good : Bool) (s : Bytes) : Bytes × Bytes :=
  match s with
  | [] => (ascii "%!(NOVERB)", [])
  | c :: r =>
    if c = 37 then ([37], r)
    else (ascii "%!" ++ (verbOf s).1 ++ (if good then ascii "(MISSING)" else ascii "(BADINDEX)"), (verbOf s).2)

/-- a directive without an argument for it, given what is behind its '%': what is written instead, and the rest.  `doPrintf` of `fmt` (Go 1.18). -/
def directive (s : Bytes) : Bytes × Bytes :=
  let a := argNumber (s.dropWhile isFlag)
  let w := width a.2.1 a.2.2
  let p := precision w.2.2.1 w.2.2.2
  let b := if p.2.2.1 then (true, true, p.2.2.2) else argNumber p.2.2.2
  let v := verb (a.1 && w.2.1 && p.2.1 && b.1) b.2.2
  (w.1 ++ p.1 ++ v.1, v.2)

/-- `doPrintf` without arguments; every directive is at least one byte, so the length of the text bounds the number of steps -/
def noArgs : Nat → Bytes → Bytes
  | _, [] => []
  | 0, _ => []
  | n + 1, c :: r => if c = 37 then (directive r).1 ++ noArgs n (directive r).2 else c :: noArgs n r

/-- the text of `fmt.Errorf(format)` -/
def errorf (format : Bytes) : Bytes := noArgs format.length format

/-! ### The verbs `%v` and `%T` -/

/-- texts with blanks between them -/
def spaced : List Bytes → Bytes
  | [] => []
  | [t] => t
  | t :: ts => t ++ 32 :: spaced ts

mutual
/-- the verb `%v` for a value of the decoder: maps are sorted by their keys -/
def fmtV : Value → Bytes
  | .str s => s
  | .int64 i => intDec i
  | .intN i => intDec i
  | .list vs => ascii "[" ++ spaced (fmtList vs) ++ ascii "]"
  | .dict es => ascii "map[" ++ spaced (((fmtEntries es).mergeSort fun x y => bytesLe x.1 y.1).map fun p => p.1 ++ ascii ":" ++ p.2) ++ ascii "]"
  | .other => ascii "<nil>"
/-- the elements of a list -/
def fmtList : List Value → List Bytes
  | [] => []
  | v :: vs => fmtV v :: fmtList vs
/-- the values of the entries, each with its key -/
def fmtEntries : List (Bytes × Value) → List (Bytes × Bytes)
  | [] => []
  | (k, v) :: es => (k, fmtV v) :: fmtEntries es
end

/-- the verb `%T`, dict.go:49, 66, 91, 108 -/
def goType : Value → Bytes
  | .str _ => ascii "string"
  | .int64 _ => ascii "int64"
  | .intN _ => ascii "int"
  | .list _ => ascii "bencode.List"
  | .dict _ => ascii "bencode.Dict"
  | .other => ascii "<nil>"

/-! ### The errors -/

/-- the error values -/
inductive Why where
  /-- torrent.go:75-78: the error of `os.ReadFile`, with this text -/
  | os (text : Bytes)
  /-- torrent.go:80-83: an error of the decoder, with this text -/
  | decode (text : Bytes)
  /-- torrent.go:87 -/
  | notDict
  /-- dict.go:32-35 `DictMissingKeyError` -/
  | missing (key : Bytes)
  /-- dict.go:46-51, 63-68, 88-93, 105-110 `DictBadTypeError`; `isNil`: the field `dict` is nil -/
  | badType (key want got : Bytes) (isNil : Bool)
  /-- info.go:227-229 -/
  | noFiles
  /-- entrybase.go:60 -/
  | notEntry
  /-- entrybase.go:79 -/
  | badPath (v : Value)
  /-- info.go:160 -/
  | hashes
  /-- piecemap.go:58 -/
  | counted (n total : Int)

/-- the methods `Error`: dict.go:15-17, 24-26, torrent.go:20-22, info.go:21-23.  `addr` is what the verb `%p` writes for the address of a dictionary
(dict.go:16) or of the field of the error (dict.go:25); for a nil dictionary it writes 0x0. -/
def Why.text (addr : Bytes) : Why → Bytes
  | .os t => t
  | .decode t => t
  | .notDict => ascii "tracker error: " ++ ascii "decoded bencoding is not a dictionary"
  | .missing key => ascii "missing key [" ++ key ++ ascii "] in bencode dictionary [" ++ addr ++ ascii "]"
  | .badType key want got isNil =>
    ascii "bad type for key [" ++ key ++ ascii "] in dict [" ++ (if isNil then ascii "0x0" else addr) ++ ascii "]\nrequest [" ++ want ++
      ascii "]\n    got [" ++ got ++ ascii "]"
  | .noFiles => ascii "tracker error: " ++ ascii "missing keys 'length' and 'files', must have exactly 1"
  | .notEntry => ascii "failed to convert file entry to dictionary"
  | .badPath v => errorf (ascii "file entry contains invalid path [" ++ fmtV v ++ ascii "]")
  | .hashes => ascii "hashes must be multiple of 20"
  | .counted n total => ascii "only accounted for " ++ intDec n ++ ascii "/" ++ intDec total ++ ascii " bytes"

/-- how a function ends -/
inductive Out (α : Type) where
  | ok (a : α)
  | err (e : Why)
  | panic
  | timeout

/-- `if err != nil { return nil, err }` -/
def Out.bind {α β : Type} : Out α → (α → Out β) → Out β
  | .ok a, f => f a
  | .err e, _ => .err e
  | .panic, _ => .panic
  | .timeout, _ => .timeout

/-! ### The functions -/

/-- dict.go:39-54 `GetString` -/
def getStringT (d : Dict) (key : Bytes) : Out Bytes :=
  match d.lookup key with
  | none => .err (.missing key)
  | some (.str s) => .ok s
  | some v => .err (.badType key (ascii "string") (goType v) false)

/-- dict.go:56-71 `GetInt` -/
def getIntT (d : Dict) (key : Bytes) : Out Int :=
  match d.lookup key with
  | none => .err (.missing key)
  | some (.int64 i) => .ok i
  | some v => .err (.badType key (ascii "int64") (goType v) false)

/-- dict.go:81-96 `GetDict`: in the branch with the error `d` is the result of the type assertion, a nil map -/
def getDictT (d : Dict) (key : Bytes) : Out Dict :=
  match d.lookup key with
  | none => .err (.missing key)
  | some (.dict es) => .ok es
  | some v => .err (.badType key (ascii "dict") (goType v) true)

/-- dict.go:98-113 `GetList` -/
def getListT (d : Dict) (key : Bytes) : Out (List Value) :=
  match d.lookup key with
  | none => .err (.missing key)
  | some (.list vs) => .ok vs
  | some v => .err (.badType key (ascii "list") (goType v) false)

/-- entrybase.go:76-83 -/
def pathLoopT : List Value → Bytes → Out Bytes
  | [], strb => .ok strb
  | .str s :: vs, strb => pathLoopT vs (strb ++ s ++ [47])
  | v :: _, _ => .err (.badPath v)

/-- entrybase.go:58-87 -/
def benEntryT (v : Value) : Out EntryBase :=
  match v with
  | .dict fDict =>
    (getIntT fDict (ascii "length")).bind fun fLen =>
    (getListT fDict (ascii "path")).bind fun fPathList =>
    (pathLoopT fPathList []).bind fun strb =>
    if strb = [] then .panic else .ok (MakeFileEntry (strb.take (strb.length - 1)) fLen)
  | _ => .err .notEntry

/-- entrybase.go:54-91 `FromBenList` -/
def FromBenListT : List Value → Out (List EntryBase)
  | [] => .ok []
  | v :: vs => (benEntryT v).bind fun e => (FromBenListT vs).bind fun es => .ok (e :: es)

/-- info.go:213-244; the errors of `GetInt` and `GetList` are dropped -/
def entriesT (info : Dict) (name workingDir : Bytes) : Out (List EntryBase) :=
  match getIntT info (ascii "length") with
  | .ok length => .ok [(MakeFileEntry name length).SetLocalPath (Join workingDir name)]
  | .err _ =>
    match getListT info (ascii "files") with
    | .ok files => (FromBenListT files).bind fun es => .ok (es.map fun fe => fe.SetLocalPath (Join (Join workingDir name) fe.torPath))
    | .err _ => .err .noFiles
    | .panic => .panic
    | .timeout => .timeout
  | .panic => .panic
  | .timeout => .timeout

/-- piecemap.go:13-62 `MakePieceMap`; the loop does not return errors, see `C105_same` -/
def MakePieceMapT (fl : List Entry) (npieces : Nat) (pl totalLen : Int) : Out (List (List PieceLocation)) :=
  match pieceMapLoop npieces pl 0 fl ⟨List.replicate npieces [], 0, pl, 0⟩ with
  | .ok st => if st.totalCounted ≠ totalLen then .err (.counted st.totalCounted totalLen) else .ok st.pm
  | .err _ => .timeout
  | .panic => .panic
  | .timeout => .timeout

/-- info.go:157-192 `NewTorInfo` -/
def NewTorInfoT (name : Bytes) (pieceLen : Int) (hashes : Bytes) (files : List EntryBase) : Out TorInfo :=
  if hashes.length % 20 ≠ 0 then .err .hashes
  else match MakeFileList files pieceLen with
    | .ok flist =>
      (MakePieceMapT flist (hashes.length / 20) pieceLen (files.map EntryBase.length).sum).bind fun pm => .ok {
        name := name, pieceLen := pieceLen, hashes := hashes, numPieces := hashes.length / 20,
        length := (files.map EntryBase.length).sum, flist := flist, isSingle := files.length = 1, pm := pm,
        lastPieceLen := pieceLen - (((hashes.length / 20 : Nat) : Int) * pieceLen - (files.map EntryBase.length).sum) }
    | .err _ => .timeout
    | .panic => .panic
    | .timeout => .timeout

/-- info.go:196-247 `FromDict` -/
def FromDictT (info : Dict) (workingDir : Bytes) : Out TorInfo :=
  (getStringT info (ascii "name")).bind fun name =>
  (getIntT info (ascii "piece length")).bind fun pieceLen =>
  (getStringT info (ascii "pieces")).bind fun hashes =>
  (entriesT info name workingDir).bind fun fentries =>
  NewTorInfoT name pieceLen hashes fentries

/-- torrent.go:70-111 `FromTorrentFile`; `osErr` is the text of the error of `os.ReadFile` -/
def FromTorrentFileT (H : Bytes → Bytes) (osErr : Bytes) (fdata : Option Bytes) (spare workingDir : Bytes) : Out Torrent :=
  match fdata with
  | none => .err (.os osErr)
  | some data =>
    match DecodeText.DecodeT data spare with
    | .value (.dict dict) =>
      (getStringT dict (ascii "announce")).bind fun announce =>
      (getDictT dict (ascii "info")).bind fun infodict =>
      (FromDictT infodict workingDir).bind fun torInfo =>
      .ok ⟨H (Encode (.dict infodict)).1, announce, torInfo⟩
    | .value _ => .err .notDict
    | .error t => .err (.decode t)
    | .timeout => .timeout

end Verif.LoadText
