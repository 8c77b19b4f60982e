import Verif.Model.Human
import Verif.Model.Startup
/-
Model of what the program prints about a torrent: /repo/src/torrent/torrent.go:116-141 (`Torrent.String`, the output of the `info` command,
main.go:46-52), /repo/src/tracker/tracker.go:255-279 (`State.String`, `Response.String`), /repo/src/peer/list.go:16-26 (`List.String`) and
/repo/src/swarm/swarm.go:168-176 (`Swarm.String`, printed when the client starts, main.go:37).

The text of a floating point number with the verb `%v` is the parameter `fv` (of numerator and denominator).
-/
set_option autoImplicit false

namespace Verif.Show
open Verif.Bencode Verif.Files Verif.Torrent Verif.Human

/-- a digit of `encoding/hex` -/
def hexDigit (n : UInt8) : UInt8 := if n < 10 then 48 + n else 87 + n

/-- `hex.EncodeToString`, torrent.go:118 -/
def hexEncode (b : Bytes) : Bytes := b.flatMap fun c => [hexDigit (c / 16), hexDigit (c % 16)]

/-- the verb `%8s` or `%12s` for a string of ASCII characters: filled with blanks on the left -/
def padLeft (w : Nat) (s : Bytes) : Bytes := List.replicate (w - s.length) 32 ++ s

/-- torrent.go:130-135: one line of the list of files -/
def fileLine (fv : Int → Int → Bytes) (e : Entry) : Res Bytes :=
  match Bytes4Humans e.base.length with
  | .ok (n, d, u) => .ok (padLeft 8 (fv n d ++ u) ++ ascii " : " ++ e.base.torPath ++ [10])
  | .err e => .err e
  | .panic => .panic
  | .timeout => .timeout

/-- torrent.go:129-136: the loop over the files -/
def fileLines (fv : Int → Int → Bytes) : List Entry → Res Bytes
  | [] => .ok []
  | e :: es => do
    let l ← fileLine fv e
    let ls ← fileLines fv es
    .ok (l ++ ls)

/-- torrent.go:123-124: the line with the pieces -/
def pieceLine (fv : Int → Int → Bytes) (ti : TorInfo) : Res Bytes :=
  match Bytes4Humans ti.pieceLen with
  | .ok (n, d, u) => .ok (ascii "   Pieces: [" ++ natDec ti.numPieces ++ ascii " x " ++ fv n d ++ ascii " " ++ u ++ ascii "]\n")
  | .err e => .err e
  | .panic => .panic
  | .timeout => .timeout

/-- torrent.go:116-141 `Torrent.String` -/
def TorrentString (fv : Int → Int → Bytes) (t : Torrent) : Res Bytes := do
  let p ← pieceLine fv t.info
  let l ← lengthLines t.info.length
  let fs ← if t.info.isSingle then .ok [] else do
    let ls ← fileLines fv t.info.flist
    .ok (ascii "\nFiles:\n" ++ ls)
  .ok (ascii "Torrent Info:\n" ++ ascii "     Name: [" ++ t.info.name ++ ascii "]\n" ++ ascii " Announce: [" ++ t.announce ++ ascii "]\n" ++
    ascii " Infohash: [" ++ hexEncode t.infohash ++ ascii "]\n" ++ p ++ l ++ fs)

/-- tracker.go:258-263: one line -/
def stateLine (name value : Bytes) : Bytes := padLeft 12 name ++ ascii ": [" ++ value ++ ascii "]\n"

/-- tracker.go:255-265 `State.String` -/
def StateString (s : Tracker.State) : Bytes :=
  ascii "Tracker State:\n" ++ stateLine (ascii "Seeders") (natDec s.seeders) ++ stateLine (ascii "Leechers") (natDec s.leechers) ++
    stateLine (ascii "Interval") (natDec s.interval) ++ stateLine (ascii "Warning") s.warning ++ stateLine (ascii "Tracker ID") s.tid ++
    stateLine (ascii "Min Interval") (natDec s.minInterval)

/-- list.go:19-24: the loop; `i` is the index -/
def peerLoop (v6 : Peer.IP → Bytes) : Nat → List Peer.Info → Bytes
  | _, [] => []
  | i, p :: ps =>
    (if i % 5 = 0 then ascii "\n\t" else []) ++ (ascii "(" ++ Peer.ipString v6 p.ip ++ ascii ":" ++ natDec p.port.toNat ++ ascii ") ") ++
      peerLoop v6 (i + 1) ps

/-- list.go:16-26 `List.String` -/
def ListString (v6 : Peer.IP → Bytes) (l : List Peer.Info) : Bytes :=
  ascii "Peer List (" ++ natDec l.length ++ ascii "):" ++ peerLoop v6 0 l

/-- tracker.go:268-279 `Response.String` -/
def ResponseString (v6 : Peer.IP → Bytes) (r : Tracker.Response) : Bytes := StateString r.state ++ ListString v6 r.peers

/-- swarm.go:168-176 `Swarm.String` -/
def SwarmString (fv : Int → Int → Bytes) (v6 : Peer.IP → Bytes) (s : Startup.Started) : Res Bytes := do
  let t ← TorrentString fv s.tor
  .ok (t ++ [10] ++ StateString s.state ++ [10] ++ ListString v6 s.peers)

/-- main.go:46-52 `CmdTorInfo`: what is printed; errors end the process (`log.Fatal`).  Arguments as for `FromTorrentFile`. -/
def CmdTorInfo (H : Bytes → Bytes) (fv : Int → Int → Bytes) (data : Option Bytes) (sp wd : Bytes) : Res Bytes := do
  let t ← FromTorrentFile H data sp wd
  let s ← TorrentString fv t
  .ok (s ++ [10])

end Verif.Show
