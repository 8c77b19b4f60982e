import Verif.Model.Sha1
import Verif.Model.Create
import Verif.Model.Torrent
import Verif.Tests.Bencode
/-
TESTS, not proofs: SHA-1 on the standard vectors, and the cases of /repo/src/bencode/bencode_test.go,
/repo/src/torrent/torrent_test.go and /repo/src/torrent/info/info_test.go with the torrent files of /repo/test, run on the model by
evaluation.
-/
set_option autoImplicit false

namespace Verif.Tests
open Verif.Bencode Verif.Sha1 Verif.Torrent

/-- value of a hexadecimal digit -/
def hexVal (c : UInt8) : UInt8 := if c < 58 then c - 48 else c - 87

/-- bytes written in hexadecimal digits -/
def unhexL : Bytes → Bytes
  | a :: b :: rest => (16 * hexVal a + hexVal b) :: unhexL rest
  | _ => []

/-- bytes written in hexadecimal digits -/
def unhex (t : String) : Bytes := unhexL (ascii t)

/-! FIPS 180-4 examples -/

#guard sha1 (ascii "abc") == unhex "a9993e364706816aba3e25717850c26c9cd0d89d"
#guard sha1 [] == unhex "da39a3ee5e6b4b0d3255bfef95601890afd80709"
#guard sha1 (ascii "abcdbcdecdefdefgefghfghighijhijkijkljklmklmnlmnomnopnopq") == unhex "84983e441c3bd26ebaae4aa1f95129e5e54670f1"
#guard sha1 (List.replicate 55 97) == unhex "c1c8bbdc22796e28c0e15163d20899b65621d65a"
#guard sha1 (List.replicate 56 97) == unhex "c2db330f6083854c99d4b5bfb6e8f29f201be699"
#guard sha1 (List.replicate 64 97) == unhex "0098ba824b5c16427bd7a1122a5a442a25ec644d"

/-! the torrent files of /repo/test -/

/-- the part all of them have in common, before the creation date -/
def torrentHead : Bytes :=
  ascii ("d8:announce42:http://opentracker.i2p.rocks:6969/announce7:comment21:Gotor testing file(s)10:created by30:" ++
    "Transmission/2.94 (d8e60ee44f)13:creation datei")

/-- /repo/test/multifile.torrent, 569 bytes -/
def multifileTorrent : Bytes :=
  torrentHead ++ ascii
    ("1655695465e8:encoding5:UTF-84:infod5:filesl" ++
      "d6:lengthi256e4:pathl2:d14:d1.110:d1.1.file1ee" ++
      "d6:lengthi256e4:pathl2:d14:d1.210:d1.2.file1ee" ++
      "d6:lengthi256e4:pathl2:d28:d2.file1ee" ++
      "d6:lengthi256e4:pathl2:d28:d2.file2ee" ++
      "d6:lengthi256e4:pathl5:file1ee" ++
      "d6:lengthi512e4:pathl5:file2ee" ++
      "d6:lengthi1024e4:pathl5:file3ee" ++
      "d6:lengthi25600e4:pathl5:file4ee" ++
      "e4:name9:multifile12:piece lengthi32768e6:pieces20:") ++
    unhex "c01da92101ea7d30ce7a63419bde4488a27a8427" ++ ascii "7:privatei0eee"

/-- a torrent file with one file all of whose pieces are equal -/
def singleTorrent (rest : String) (n : Nat) (hash : String) : Bytes :=
  torrentHead ++ ascii rest ++ (List.replicate n (unhex hash)).flatten ++ ascii "7:privatei0eee"

/-- /repo/test/medfile.torrent, 16270 bytes -/
def medfileTorrent : Bytes :=
  singleTorrent "1654048898e8:encoding5:UTF-84:infod6:lengthi52428800e4:name7:medfile12:piece lengthi65536e6:pieces16000:" 800
    "f04977267a391b2c8f7ad8e070f149bc19b0fc25"

/-- /repo/test/bigfile.torrent, 20754 bytes -/
def bigfileTorrent : Bytes :=
  singleTorrent "1654048897e8:encoding5:UTF-84:infod6:lengthi1073741824e4:name7:bigfile12:piece lengthi1048576e6:pieces20480:" 1024
    "ecfc8e86fdd83811f9cc9bf500993b63069923be"

/-- /repo/test/tinyfile.torrent, 424 bytes -/
def tinyfileTorrent : Bytes :=
  singleTorrent "1657074081e8:encoding5:UTF-84:infod6:lengthi8192e4:name8:tinyfile12:piece lengthi1024e6:pieces160:" 8
    "5b00669c480d5cffbdfa8bdba99561160f2d1b77"

-- these are the files (SHA-1 of the files, computed with sha1sum)
#guard multifileTorrent.length == 569 && sha1 multifileTorrent == unhex "2a5d793e59212eb5b4ee0e2a754e53a947d2363f"
#guard medfileTorrent.length == 16270 && sha1 medfileTorrent == unhex "be9c7ee90726d8efa0a8f2ae18a9ba1c406b976c"
#guard bigfileTorrent.length == 20754 && sha1 bigfileTorrent == unhex "fdd2e8f3c0f39c2d82cc235aa22a523b6e08ba27"
#guard tinyfileTorrent.length == 424 && sha1 tinyfileTorrent == unhex "50dcf820b4bd7763645cdea498c7ababdc01485d"

/-- `encode(decode(fdata)) = fdata` -/
def roundTrip (data : Bytes) : Bool :=
  match Bencode.Decode data [] with
  | .ok v => (Encode v).1 == data && (Encode v).2 == none
  | _ => false

-- TestBencode
#guard roundTrip multifileTorrent
#guard roundTrip medfileTorrent
#guard roundTrip bigfileTorrent
#guard roundTrip tinyfileTorrent

/-- the info hash of a torrent file -/
def infohashOf (data : Bytes) : Res Bytes := do
  let t ← FromTorrentFile sha1 (some data) [] (ascii ".")
  .ok t.infohash

-- TestFromTorrentFile
#guard isOk (unhex "a976fdd2ccce699eab604115408ead8560c2d095") (infohashOf multifileTorrent)
#guard isOk (unhex "a554b7cc4616ae2fce43fabe9a7fe931aff5d85c") (infohashOf medfileTorrent)
#guard isOk (unhex "658a9fbffae3c07e2320b7c4b144da978296dcc7") (infohashOf bigfileTorrent)

/-! info_test.go: the files of /repo/test hold the bytes 0, 1, …, 255, 0, 1, … (gen_f.py) -/

/-- a file of `n` bytes -/
def content (n : Nat) : Bytes := (List.range n).map UInt8.ofNat

/-- the files of `multifile` with their lengths -/
def multiFiles : List (Bytes × Nat) :=
  [(ascii "d1/d1.1/d1.1.file1", 256), (ascii "d1/d1.2/d1.2.file1", 256), (ascii "d2/d2.file1", 256), (ascii "d2/d2.file2", 256),
   (ascii "file1", 256), (ascii "file2", 512), (ascii "file3", 1024), (ascii "file4", 25600)]

/-- the file system of the test -/
def testFS : FS.State := fun p =>
  match multiFiles.find? fun f => ascii "../../../test/multifile/" ++ f.1 == p with
  | some f => some (content f.2)
  | none => if p = ascii "../../../test/tinyfile" then some (content 8192) else none

/-- info hash and length of the last piece for `CreateTorInfo` -/
def created (reads : Nat → Option Nat) (paths : List Bytes) (name : Bytes) (pieceLen : Int) : Res (Bytes × Int) := do
  let ti ← Create.CreateTorInfo sha1 reads testFS 100000 paths (ascii "../../../test") name pieceLen
  .ok (sha1 (Encode (.dict (benInfo ti))).1, ti.lastPieceLen)

-- TestCreateTorInfo, however the reads are split
#guard isOk (unhex "a976fdd2ccce699eab604115408ead8560c2d095", 28416)
  (created (fun _ => some 10000000) (multiFiles.map Prod.fst) (ascii "multifile") 32768)
#guard isOk (unhex "a976fdd2ccce699eab604115408ead8560c2d095", 28416)
  (created (fun t => some (100 + t % 7)) (multiFiles.map Prod.fst) (ascii "multifile") 32768)
-- the same for tinyfile, which the repository has no case for
#guard (match infohashOf tinyfileTorrent, created (fun _ => some 1000) [ascii "tinyfile"] (ascii "tinyfile") 1024 with
  | .ok h, .ok c => c == (h, 1024)
  | _, _ => false)

-- a piece of medfile has the hash of the torrent file (the whole file is too long for the evaluator)
#guard sha1 (content 65536) == unhex "f04977267a391b2c8f7ad8e070f149bc19b0fc25"

end Verif.Tests
