import Verif.Model.UrlParse
/-
The HTTP client when the tracker redirects: `client.Do` of tracker.go:101-103 with `http.Client{}`, that is, with the default policy.  Go 1.18: `net/http/client.go`
(`Client.do`, `redirectBehavior`, `defaultCheckRedirect`) and `net/url/url.go` (`URL.Parse`, `URL.ResolveReference`, `resolvePath`).

Not modelled: the headers of the requests (`Referer`, `Authorization`, cookies) and proxies; `net` is the network, which may answer differently each time.
-/
set_option autoImplicit false

namespace Verif.Redirect
open Verif.Bencode Verif.UrlParse

/-- a request: whether over TLS, the host, the target in the request line -/
structure Hop where
  tls : Bool
  host : Bytes
  target : Bytes
deriving DecidableEq

/-- an answer: the status, the header `Location` (empty if there is none), the body -/
structure Answer where
  status : Nat
  location : Bytes
  body : Bytes

/-- `url.URL` with the field `ForceQuery`: a `?` with nothing behind it -/
structure Place where
  url : URL
  force : Bool

/-- `parse` (url.go): the field `ForceQuery` -/
def forced (raw : Bytes) : Bool :=
  let rest := (cut 35 raw).1
  rest.getLast? = some 63 && rest.count 63 = 1

/-- `resolvePath`: one round of the loop, for one element -/
def pathStep (first : Bool) (dst elem : Bytes) : Bool × Bytes :=
  if elem = [46] then (false, dst)
  else if elem = [46, 46] then
    match lastIndex 47 (dst.drop 1) with
    | none => (true, [47])
    | some i => (first, 47 :: (dst.drop 1).take i)
  else (false, dst ++ (if first then [] else [47]) ++ elem)

/-- `resolvePath`: the loop; gives the last element and what was written.  Each round takes a slash off, so as many rounds as there are bytes and one are enough. -/
def pathLoop : Nat → Bool → Bytes → Bytes → Bytes × Bytes
  | 0, _, dst, _ => ([], dst)
  | n + 1, first, dst, remaining =>
    let elem := (cut 47 remaining).1
    let next := pathStep first dst elem
    if (cut 47 remaining).2.2 then pathLoop n next.1 next.2 (cut 47 remaining).2.1 else (elem, next.2)

/-- `resolvePath`: the path that dots are removed from -/
def fullPath (base ref : Bytes) : Bytes :=
  if ref = [] then base
  else if ref.head? ≠ some 47 then
    (match lastIndex 47 base with
    | none => []
    | some i => base.take (i + 1)) ++ ref
  else ref

/-- `resolvePath`: the end -/
def cleanPath (full : Bytes) : Bytes :=
  if full = [] then []
  else
    let (elem, dst) := pathLoop (full.length + 1) true [47] full
    let r := if elem = [46] ∨ elem = [46, 46] then dst ++ [47] else dst
    if r.length > 1 ∧ r[1]? = some 47 then r.drop 1 else r

/-- `resolvePath` -/
def resolvePath (base ref : Bytes) : Bytes := cleanPath (fullPath base ref)

/-- `url.setPath(p)` with the error ignored: then nothing changes -/
def withPath (u : URL) (p : Bytes) : URL := (setPath u p).getD u

/-- `URL.ResolveReference` -/
def ResolveReference (u ref : URL) : URL :=
  let url := { ref with scheme := if ref.scheme = [] then u.scheme else ref.scheme }
  if ref.scheme ≠ [] ∨ ref.host ≠ [] ∨ ref.user ≠ none then withPath url (resolvePath ref.EscapedPath [])
  else if ref.opaq ≠ [] then { url with user := none, host := [], path := [] }
  else
    let url := if ref.path = [] ∧ ref.rawQuery = [] then
        { url with rawQuery := u.rawQuery, fragment := if ref.fragment = [] then u.fragment else url.fragment }
      else url
    withPath { url with host := u.host, user := u.user } (resolvePath u.EscapedPath ref.EscapedPath)

/-- `req.URL.Parse(loc)`, `Client.do` -/
def Place.next (p : Place) (loc : Bytes) : Option Place :=
  (Parse loc).map fun ref => ⟨ResolveReference p.url ref, forced loc⟩

/-- `URL.RequestURI` with `ForceQuery` -/
def Place.target (p : Place) : Bytes := p.url.RequestURI ++ (if p.force = true ∧ p.url.rawQuery = [] then [63] else [])

/-- the checks of `Transport.roundTrip` and `Request.write` that concern the URL, see `UrlParse.Do` -/
def Place.check (p : Place) : Option Hop :=
  if ¬ (p.url.scheme = ascii "http" ∨ p.url.scheme = ascii "https") then none
  else if p.url.host = [] then none
  else if p.target.any Tracker.isCTL then none
  else some ⟨p.url.scheme = ascii "https", p.url.host, p.target⟩

/-- `redirectBehavior` for a request without a body: whether the answer is followed -/
def follows (a : Answer) : Bool :=
  a.status = 301 || a.status = 302 || a.status = 303 || ((a.status = 307 || a.status = 308) && a.location ≠ [])

/-- `Client.do`: the loop.  The first number is how many more requests are allowed by `defaultCheckRedirect`, `i` is how many were made.  The result is the requests and the body of
the answer; `none` is an error. -/
def run (net : Nat → Hop → Option Answer) : Nat → Nat → Place → List Hop × Option Bytes
  | 0, _, _ => ([], none)
  | n + 1, i, p =>
    match p.check with
    | none => ([], none)
    | some hop =>
      match net i hop with
      | none => ([hop], none)
      | some a =>
        if follows a = false then ([hop], some a.body)
        else if a.location = [] then ([hop], none)
        else match p.next a.location with
          | none => ([hop], none)
          | some q => let r := run net n (i + 1) q; (hop :: r.1, r.2)

/-- tracker.go:87, 96, 101-103: the requests for an announcement with this query.  `defaultCheckRedirect` stops when ten requests were made. -/
def requests (net : Nat → Hop → Option Answer) (raw query : Bytes) : List Hop × Option Bytes :=
  match NewRequest raw with
  | some u => run net 10 0 ⟨{ u with rawQuery := query }, forced raw⟩
  | none => ([], none)

/-- what the parameter `http` of the model of the tracker stands for, with redirections -/
def send (net : Nat → Hop → Option Answer) (raw query : Bytes) : Option Bytes := (requests net raw query).2

end Verif.Redirect
