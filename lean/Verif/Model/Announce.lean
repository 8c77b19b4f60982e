import Verif.Model.Body
import Verif.Model.Redirect
/-
A whole announcement, tracker.go:77-129, from the announce URL to the response: the redirections of `Model/Redirect.lean` over the connections of `Model/Body.lean`.  Go 1.18: `Client.do`
(`net/http/client.go`) and `persistConn.readResponse` (`net/http/transport.go`).

Not modelled: the parsing of heads, headers, proxies, compressed answers, HTTP/2, the field `Upgrade` of an answer with status 101, and which requests share a connection.
-/
set_option autoImplicit false

namespace Verif.Announce
open Verif.Bencode Verif.UrlParse Verif.Redirect Verif.Body Verif.Tracker Verif.Peer Verif.Torrent

/-- what comes of one request: no connection, or one that breaks or sends no head; a connection that stays silent; or a head, behind `info` informational ones (status 100 to 199, but not 101).
`location` is empty if there is no such field, `data` and `e` are what comes behind the head and how it ends. -/
inductive Reply where
  | refused
  | mute
  | head (info : Nat) (h : Head) (location : Bytes) (data : Bytes) (e : End)

/-- `Client.do` reads up to 2048 bytes of the body of a redirection (`maxBodySlurpSize`), unless its length is known to be more: whether it waits for ever.  In chunks, what it has read when it
stops depends on what arrived together; `may` says whether it waits if the body is incomplete. -/
def stalls (mime : Bytes → Bool) (may : Bool) (h : Head) (data : Bytes) (e : End) : Bool :=
  match framing h with
  | .length n => n ≤ 2048 && data.length < n && e = .silent
  | .close => data.length < 2048 && e = .silent
  | .chunked => may && readBody mime .chunked data e = .waiting

/-- `Client.do`: the loop, as in `Redirect.run`, and `ioutil.ReadAll` of the last answer, tracker.go:103-111.  More than five informational heads are an error (`readResponse`). -/
def run (mime : Bytes → Bool) (may : Nat → Bool) (net : Nat → Hop → Reply) : Nat → Nat → Place → List Hop × Got
  | 0, _, _ => ([], .failed)
  | n + 1, i, p =>
    match p.check with
    | none => ([], .failed)
    | some hop =>
      match net i hop with
      | .refused => ([hop], .failed)
      | .mute => ([hop], .waiting)
      | .head info h loc data e =>
        if 5 < info then ([hop], .failed)
        else if follows ⟨h.status, loc, []⟩ = false then ([hop], readBody mime (framing h) data e)
        else if loc = [] then ([hop], .failed)
        else match p.next loc with
          | none => ([hop], .failed)
          | some q =>
            if stalls mime (may i) h data e = true then ([hop], .waiting)
            else let r := run mime may net n (i + 1) q; (hop :: r.1, r.2)

/-- tracker.go:86-98 `newRequest`: the query; the same as that of `Tracker.newRequest` -/
def query (u : URL) (tor : Torrent) (stats : Stats) (port : UInt16) (peerId : Bytes) : Bytes :=
  Url.Encode (announceValues u.Query tor.infohash stats port peerId)

/-- tracker.go:77-84 `Get`: the requests and the result -/
def Get (v6 : IP → Bytes) (parseIP : Bytes → IP) (mime : Bytes → Bool) (may : Nat → Bool) (net : Nat → Hop → Reply) (spare : Bytes) (tor : Torrent) (stats : Stats) (port : UInt16)
    (peerId : Bytes) : List Hop × Res Response :=
  match NewRequest tor.announce with
  | none => ([], .panic)
  | some u =>
    let r := run mime may net 10 0 ⟨{ u with rawQuery := query u tor stats port peerId }, forced tor.announce⟩
    (r.1, match r.2 with
      | .body b => doRequest v6 parseIP (some b) spare
      | .failed => doRequest v6 parseIP none spare
      | .waiting => .timeout)

end Verif.Announce
