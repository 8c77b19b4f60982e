import Verif.Model.Peer
import Verif.Model.Url
import Verif.Model.Torrent
/-
Model of /repo/src/tracker/stats.go and tracker.go.  Not modelled: the HTTP client (its outcome is a parameter), printing.
-/
set_option autoImplicit false

namespace Verif.Tracker
open Verif.Bencode Verif.Peer Verif.Url Verif.Torrent

/-- stats.go:6-10 -/
structure Stats where
  uploaded : UInt64
  dnloaded : UInt64
  left : UInt64
  deriving DecidableEq, Repr

/-- stats.go:12-18 `NewStats` -/
def NewStats (dn up left : UInt64) : Stats := ⟨up, dn, left⟩

/-- stats.go:20-22 -/
def Stats.IncUploaded (s : Stats) (amnt : UInt64) : Stats := { s with uploaded := s.uploaded + amnt }

/-- stats.go:24-26 -/
def Stats.IncDnloaded (s : Stats) (amnt : UInt64) : Stats := { s with dnloaded := s.dnloaded + amnt }

/-- stats.go:28-34 -/
def Stats.DecLeft (s : Stats) (amnt : UInt64) : Stats :=
  if amnt ≥ s.left then { s with left := 0 } else { s with left := s.left - amnt }

/-- tracker.go:30-37; `uint64` fields as natural numbers -/
structure State where
  interval : Nat
  minInterval : Nat
  warning : Bytes
  tid : Bytes
  seeders : Nat
  leechers : Nat
  deriving DecidableEq, Repr

/-- tracker.go:42-45 -/
structure Response where
  state : State
  peers : List Info
  deriving DecidableEq, Repr

/-- tracker.go:214-219: the loop over the 6 byte groups (the length is a multiple of 6) -/
def compactLoop (v6 : IP → Bytes) : Bytes → List Info
  | a :: b :: c :: d :: e :: f :: rest =>
    MakePeer v6 [] (IPv4 a b c d) (UInt16.ofNat (e.toNat * 256 + f.toNat)) :: compactLoop v6 rest
  | _ => []

/-- tracker.go:206-222 `stringSource.GetPeers` -/
def stringPeers (v6 : IP → Bytes) (s : Bytes) : Res (List Info) :=
  if s.length % 6 ≠ 0 then .err .tracker else .ok (compactLoop v6 s)

/-- tracker.go:229-247: one entry of a peer list; `parseIP` is `net.ParseIP` -/
def peerEntry (v6 : IP → Bytes) (parseIP : Bytes → IP) (v : Value) : Res Info :=
  match v with
  | .dict peerDict => do
    let ip ← Dict.getString peerDict (ascii "ip")
    let port ← Dict.getUint peerDict (ascii "port")
    let id ← Dict.getString peerDict (ascii "peer id")
    .ok (MakePeer v6 id (parseIP ip) (UInt16.ofNat port))
  | _ => .err .tracker

/-- tracker.go:226-250 `listSource.GetPeers` -/
def listPeers (v6 : IP → Bytes) (parseIP : Bytes → IP) : List Value → Res (List Info)
  | [] => .ok []
  | v :: vs => do
    let p ← peerEntry v6 parseIP v
    let ps ← listPeers v6 parseIP vs
    .ok (p :: ps)

/-- tracker.go:167-182: the peers of a response, compact or not -/
def getPeers (v6 : IP → Bytes) (parseIP : Bytes → IP) (dict : Dict) : Res (List Info) :=
  match Dict.getString dict (ascii "peers") with
  | .ok s => stringPeers v6 s
  | .err _ => do
    let list ← Dict.getList dict (ascii "peers")
    listPeers v6 parseIP list
  | .panic => .panic
  | .timeout => .timeout

/-- tracker.go:185-188 -/
def warningOf (dict : Dict) : Bytes :=
  match Dict.getString dict (ascii "warning message") with
  | .ok w => w
  | _ => []

/-- tracker.go:190-193 -/
def minIntervalOf (dict : Dict) : Nat :=
  match Dict.getUint dict (ascii "min interval") with
  | .ok i => i
  | _ => 0

/-- tracker.go:131-196 `newResponse` -/
def newResponse (v6 : IP → Bytes) (parseIP : Bytes → IP) (dict : Dict) : Res Response :=
  match Dict.getString dict (ascii "failure reason") with
  | .ok _ => .err .tracker
  | .err _ => do
    let inter ← Dict.getUint dict (ascii "interval")
    let seeds ← Dict.getUint dict (ascii "complete")
    let leeches ← Dict.getUint dict (ascii "incomplete")
    let peers ← getPeers v6 parseIP dict
    .ok ⟨⟨inter, minIntervalOf dict, warningOf dict, [], seeds, leeches⟩, peers⟩
  | .panic => .panic
  | .timeout => .timeout

/-- tracker.go:100-129 `do`; `body` is what the HTTP client and `ioutil.ReadAll` return (`none`: an error), `spare` the
bytes between length and capacity of the returned slice -/
def doRequest (v6 : IP → Bytes) (parseIP : Bytes → IP) (body : Option Bytes) (spare : Bytes) : Res Response :=
  match body with
  | none => .err .os
  | some data => do
    let ben ← Decode data spare
    match ben with
    | .dict dict => newResponse v6 parseIP dict
    | _ => .err .other

/-- control characters, which `url.Parse` rejects in what is in front of the first `#`, before anything else -/
def isCTL (c : UInt8) : Bool := c < 32 || c == 127

/-- the error of `http.NewRequest`, or the parameters already present in the announce URL.  `url.Parse` and `URL.Query`
are the parameter `parse`, except for the rejection of control characters. -/
def parseAnnounce (parse : Bytes → Option (List (Bytes × Bytes))) (announce : Bytes) : Option (List (Bytes × Bytes)) :=
  if (announce.takeWhile (· != 35)).any isCTL then none else parse announce

/-- tracker.go:89-95: the parameters added to those of the announce URL -/
def announceValues (extra : List (Bytes × Bytes)) (infohash : Bytes) (stats : Stats) (port : UInt16) (peerId : Bytes) :
    List (Bytes × Bytes) :=
  let query := Add extra (ascii "info_hash") infohash
  let query := Add query (ascii "peer_id") (QueryEscape peerId)
  let query := Add query (ascii "port") (natDec port.toNat)
  let query := Add query (ascii "uploaded") (natDec stats.uploaded.toNat)
  let query := Add query (ascii "downloaded") (natDec stats.dnloaded.toNat)
  let query := Add query (ascii "left") (natDec stats.left.toNat)
  Add query (ascii "compact") (ascii "1")

/-- tracker.go:86-98 `newRequest`: the raw query of the request.  The error of `http.NewRequest` is ignored, and then `req` is
nil: a panic in line 88. -/
def newRequest (parse : Bytes → Option (List (Bytes × Bytes))) (tor : Torrent) (stats : Stats) (port : UInt16) (peerId : Bytes) :
    Res Bytes :=
  match parseAnnounce parse tor.announce with
  | none => .panic
  | some extra => .ok (Url.Encode (announceValues extra tor.infohash stats port peerId))

/-- tracker.go:77-84 `Get`; `http` is the HTTP client: raw query to body -/
def Get (v6 : IP → Bytes) (parseIP : Bytes → IP) (parse : Bytes → Option (List (Bytes × Bytes))) (http : Bytes → Option Bytes)
    (spare : Bytes) (tor : Torrent) (stats : Stats) (port : UInt16) (peerId : Bytes) : Res Response := do
  let rawQuery ← newRequest parse tor stats port peerId
  doRequest v6 parseIP (http rawQuery) spare

end Verif.Tracker
