import Verif.Model.LoadText
import Verif.Model.Tracker
import Verif.Model.Show
import Verif.Model.MsgText
/-
Model of what is said about an answer of the tracker that is refused: the functions of Model/Tracker.lean (/repo/src/tracker/tracker.go:77-250 and the
getters of /repo/src/bencode/dict.go) with the error values they return, and the methods `Error` of these.  `Props/TrackText.lean` proves that they agree
with Model/Tracker.lean.
-/
set_option autoImplicit false

namespace Verif.TrackText
open Verif.Bencode Verif.Peer Verif.Tracker

/-- the error values -/
inductive Why where
  /-- tracker.go:103-106, 108-111: the error of `client.Do` or `ioutil.ReadAll`, with this text -/
  | http (text : Bytes)
  /-- tracker.go:113-116: an error of the decoder, with this text -/
  | decode (text : Bytes)
  /-- tracker.go:120 -/
  | notDict (body : Bytes)
  /-- tracker.go:141 -/
  | failure (fail : Bytes)
  /-- dict.go:32-35 `DictMissingKeyError` -/
  | missing (key : Bytes)
  /-- dict.go:46-51, 63-68, 105-110 `DictBadTypeError` -/
  | badType (key want got : Bytes)
  /-- tracker.go:208 -/
  | compact (len : Nat)
  /-- tracker.go:230-232 -/
  | entry (peerList : List Info)

/-- tracker.go:21-23 `Error.Error` -/
def trackerError (msg : Bytes) : Bytes := ascii "tracker error: " ++ msg

/-- the methods `Error`: tracker.go:21-23, dict.go:15-17, 24-26.  `addr` is what the verb `%p` writes.  `peer.List` has a method `String` (list.go:16),
which the verb `%v` uses. -/
def Why.text (v6 : IP → Bytes) (addr : Bytes) : Why → Bytes
  | .http t => t
  | .decode t => t
  | .notDict body => ascii "response not a bencoded dictionary\n" ++ MsgText.fmtBytes body
  | .failure fail => trackerError fail
  | .missing key => (LoadText.Why.missing key).text addr
  | .badType key want got => (LoadText.Why.badType key want got false).text addr
  | .compact len => trackerError (ascii "compact peer list must be divisible by 6, length = [" ++ natDec len ++ ascii "]")
  | .entry peerList => trackerError (ascii "invalid peer list\n[" ++ Show.ListString v6 peerList ++ ascii "]")

/-- how a function ends -/
inductive Out (α : Type) where
  | ok (a : α)
  | err (e : Why)
  | timeout

/-- `if err != nil { return nil, err }` -/
def Out.bind {α β : Type} : Out α → (α → Out β) → Out β
  | .ok a, f => f a
  | .err e, _ => .err e
  | .timeout, _ => .timeout

/-- dict.go:39-54 `GetString` -/
def getStringT (d : Dict) (key : Bytes) : Out Bytes :=
  match d.lookup key with
  | none => .err (.missing key)
  | some (.str s) => .ok s
  | some v => .err (.badType key (ascii "string") (LoadText.goType v))

/-- dict.go:56-71 `GetInt` -/
def getIntT (d : Dict) (key : Bytes) : Out Int :=
  match d.lookup key with
  | none => .err (.missing key)
  | some (.int64 i) => .ok i
  | some v => .err (.badType key (ascii "int64") (LoadText.goType v))

/-- dict.go:73-79 `GetUint` -/
def getUintT (d : Dict) (key : Bytes) : Out Nat := (getIntT d key).bind fun v => .ok (v % 2 ^ 64).toNat

/-- dict.go:98-113 `GetList` -/
def getListT (d : Dict) (key : Bytes) : Out (List Value) :=
  match d.lookup key with
  | none => .err (.missing key)
  | some (.list vs) => .ok vs
  | some v => .err (.badType key (ascii "list") (LoadText.goType v))

/-- tracker.go:206-222 `stringSource.GetPeers` -/
def stringPeersT (v6 : IP → Bytes) (s : Bytes) : Out (List Info) :=
  if s.length % 6 ≠ 0 then .err (.compact s.length) else .ok (compactLoop v6 s)

/-- tracker.go:228-248: the loop of `listSource.GetPeers`; `peerList` has the peers found so far -/
def listLoopT (v6 : IP → Bytes) (parseIP : Bytes → IP) (peerList : List Info) : List Value → Out (List Info)
  | [] => .ok peerList
  | .dict peerDict :: l =>
    (getStringT peerDict (ascii "ip")).bind fun ip =>
    (getUintT peerDict (ascii "port")).bind fun port =>
    (getStringT peerDict (ascii "peer id")).bind fun id =>
    listLoopT v6 parseIP (peerList ++ [MakePeer v6 id (parseIP ip) (UInt16.ofNat port)]) l
  | _ :: _ => .err (.entry peerList)

/-- tracker.go:226-250 `listSource.GetPeers` -/
def listPeersT (v6 : IP → Bytes) (parseIP : Bytes → IP) (l : List Value) : Out (List Info) := listLoopT v6 parseIP [] l

/-- tracker.go:167-182; the error of `GetString` is dropped -/
def getPeersT (v6 : IP → Bytes) (parseIP : Bytes → IP) (dict : Dict) : Out (List Info) :=
  match getStringT dict (ascii "peers") with
  | .ok s => stringPeersT v6 s
  | .err _ => (getListT dict (ascii "peers")).bind fun list => listPeersT v6 parseIP list
  | .timeout => .timeout

/-- tracker.go:131-196 `newResponse` -/
def newResponseT (v6 : IP → Bytes) (parseIP : Bytes → IP) (dict : Dict) : Out Response :=
  match getStringT dict (ascii "failure reason") with
  | .ok fail => .err (.failure fail)
  | .err _ =>
    (getUintT dict (ascii "interval")).bind fun inter =>
    (getUintT dict (ascii "complete")).bind fun seeds =>
    (getUintT dict (ascii "incomplete")).bind fun leeches =>
    (getPeersT v6 parseIP dict).bind fun peers =>
    .ok ⟨⟨inter, minIntervalOf dict, warningOf dict, [], seeds, leeches⟩, peers⟩
  | .timeout => .timeout

/-- what the HTTP client gets: the text of an error, or the status code and the body of an answer -/
inductive Reply where
  | failed (text : Bytes)
  | answer (status : Nat) (body : Bytes)

/-- tracker.go:100-129 `do`; nothing looks at the status.  `spare` as in Model/Tracker.lean. -/
def doT (v6 : IP → Bytes) (parseIP : Bytes → IP) (reply : Reply) (spare : Bytes) : Out Response :=
  match reply with
  | .failed t => .err (.http t)
  | .answer _ body =>
    match DecodeText.DecodeT body spare with
    | .value (.dict dict) => newResponseT v6 parseIP dict
    | .value _ => .err (.notDict body)
    | .error t => .err (.decode t)
    | .timeout => .timeout

end Verif.TrackText
