import Verif.Model.Tracker
/-
Model of the parts of Go 1.18's `net/url` and `net/http` that decide what becomes of the announce URL, /repo/src/tracker/tracker.go:86-105:
`url.Parse` (called by `http.NewRequest`), `URL.Query`, `URL.EscapedPath`, `URL.RequestURI` and the checks in front of sending a request.  In the rest of the
model they are the parameters `parse` and `http`.

Not modelled: the texts of errors; `ForceQuery` (the query of the request is never empty); `RawFragment`; redirections, proxies, the cleaning of the host for the header.
-/
set_option autoImplicit false

namespace Verif.UrlParse
open Verif.Url

/-- `strings.Cut(s, sep)` for a separator of one byte: what is in front of the first one, what is behind it, and whether there is one -/
def cut (sep : UInt8) : Bytes → Bytes × Bytes × Bool
  | [] => ([], [], false)
  | c :: cs => if c = sep then ([], cs, true) else match cut sep cs with | (a, b, f) => (c :: a, b, f)

/-- `strings.LastIndex(s, sep)` for a separator of one byte -/
def lastIndex (sep : UInt8) : Bytes → Option Nat
  | [] => none
  | c :: cs => match lastIndex sep cs with
    | some i => some (i + 1)
    | none => if c = sep then some 0 else none

/-- `strings.Index(s, "%25")` -/
def index25 : Bytes → Option Nat
  | [] => none
  | c :: cs => if (c :: cs).take 3 = [37, 50, 53] then some 0 else (index25 cs).map (· + 1)

/-- `net/url` `unhex` together with `ishex` -/
def unhex (c : UInt8) : Option UInt8 :=
  if 48 ≤ c && c ≤ 57 then some (c - 48)
  else if 97 ≤ c && c ≤ 102 then some (c - 97 + 10)
  else if 65 ≤ c && c ≤ 70 then some (c - 65 + 10)
  else none

/-- letters and digits -/
def alnum (c : UInt8) : Bool := (97 ≤ c && c ≤ 122) || (65 ≤ c && c ≤ 90) || (48 ≤ c && c ≤ 57)

/-- `shouldEscape` in modes `encodeHost` and `encodeZone`, negated -/
def hostByte (c : UInt8) : Bool :=
  alnum c || (ascii "!$&'()*+,;=:[]<>\"").contains c || c == 45 || c == 95 || c == 46 || c == 126

/-- `shouldEscape` in mode `encodePath`, negated -/
def pathByte (c : UInt8) : Bool := alnum c || c == 45 || c == 95 || c == 46 || c == 126 || (ascii "$&+,/:;=@").contains c

/-- the modes of `unescape` that differ: `encodePath`, `encodeFragment` and `encodeUserPassword` are `plain` -/
inductive Mode where
  | plain | host | zone | query
deriving DecidableEq

/-- `unescape`: the checks for an escape with the digits `h` and `l` (their characters `hc`, `lc`) -/
def escapeOk (m : Mode) (hc lc h l : UInt8) : Bool :=
  match m with
  | .host => !(h < 8 && !(hc == 50 && lc == 53))
  | .zone => !(!(hc == 50 && lc == 53) && (h * 16 + l) != 32 && !hostByte (h * 16 + l))
  | _ => true

/-- `unescape`: the check for another character -/
def byteOk (m : Mode) (c : UInt8) : Bool :=
  match m with
  | .host | .zone => !(c < 128 && !hostByte c)
  | _ => true

/-- `unescape`: what a `+` stands for -/
def plus (m : Mode) : UInt8 := if m = .query then 32 else 43

/-- `unescape`: both loops at once.  A `+` is not looked at by the checks (but it passes them). -/
def unescape (m : Mode) : Bytes → Option Bytes
  | [] => some []
  | 37 :: hc :: lc :: rest =>
    match unhex hc, unhex lc with
    | some h, some l => if escapeOk m hc lc h l then (unescape m rest).map ((h * 16 + l) :: ·) else none
    | _, _ => none
  | 37 :: _ => none
  | c :: rest =>
    if c = 43 then (unescape m rest).map (plus m :: ·)
    else if byteOk m c then (unescape m rest).map (c :: ·) else none

/-- `escape` in mode `encodePath` -/
def escapePath (s : Bytes) : Bytes := (s.map fun c => if pathByte c then [c] else [37, hexDigit (c / 16), hexDigit (c % 16)]).flatten

/-- `url.URL`, as far as it is used -/
structure URL where
  scheme : Bytes := []
  opaq : Bytes := []
  /-- user name and, if there is a `:`, password -/
  user : Option (Bytes × Option Bytes) := none
  host : Bytes := []
  path : Bytes := []
  rawPath : Bytes := []
  rawQuery : Bytes := []
  fragment : Bytes := []
deriving DecidableEq

/-- `getScheme`: the loop from byte number `i` on, with what has been seen in front of it -/
def getScheme (raw : Bytes) (i : Nat) (seen : Bytes) : Bytes → Option (Bytes × Bytes)
  | [] => some ([], raw)
  | c :: cs =>
    if (97 ≤ c && c ≤ 122) || (65 ≤ c && c ≤ 90) then getScheme raw (i + 1) (seen ++ [c]) cs
    else if (48 ≤ c && c ≤ 57) || c == 43 || c == 45 || c == 46 then
      if i = 0 then some ([], raw) else getScheme raw (i + 1) (seen ++ [c]) cs
    else if c = 58 then
      if i = 0 then none else some (seen, cs)
    else some ([], raw)

/-- `strings.ToLower` of a scheme, which is ASCII -/
def lower (s : Bytes) : Bytes := s.map fun c => if 65 ≤ c && c ≤ 90 then c + 32 else c

/-- `validOptionalPort` -/
def validOptionalPort (port : Bytes) : Bool :=
  match port with
  | [] => true
  | c :: ds => c == 58 && ds.all fun d => 48 ≤ d && d ≤ 57

/-- `parseHost` -/
def parseHost (host : Bytes) : Option Bytes :=
  if host.head? = some 91 then
    match lastIndex 93 host with
    | none => none
    | some i =>
      if !validOptionalPort (host.drop (i + 1)) then none else
      match index25 (host.take i) with
      | some z => do
        let host1 ← unescape .host (host.take z)
        let host2 ← unescape .zone ((host.take i).drop z)
        let host3 ← unescape .host (host.drop i)
        some (host1 ++ host2 ++ host3)
      | none => unescape .host host
  else
    match lastIndex 58 host with
    | some i => if !validOptionalPort (host.drop i) then none else unescape .host host
    | none => unescape .host host

/-- `validUserinfo`, on bytes instead of code points: both loops stop at the first byte that is not ASCII -/
def validUserinfo (s : Bytes) : Bool := s.all fun c => alnum c || (ascii "-._:~!$&'()*+,;=%@").contains c

/-- `parseAuthority` -/
def parseAuthority (authority : Bytes) : Option (Option (Bytes × Option Bytes) × Bytes) :=
  match lastIndex 64 authority with
  | none => do
    let host ← parseHost authority
    some (none, host)
  | some i => do
    let host ← parseHost (authority.drop (i + 1))
    let userinfo := authority.take i
    if !validUserinfo userinfo then none else
    match cut 58 userinfo with
    | (name, password, hasPassword) =>
      if !hasPassword then do
        let name ← unescape .plain userinfo
        some (some (name, none), host)
      else do
        let name ← unescape .plain name
        let password ← unescape .plain password
        some (some (name, some password), host)

/-- `URL.setPath` -/
def setPath (u : URL) (p : Bytes) : Option URL := do
  let path ← unescape .plain p
  some { u with path := path, rawPath := if p = escapePath path then [] else p }

/-- `parse(raw, false)`: everything in front of the fragment -/
def parse (raw : Bytes) : Option URL :=
  if raw.any Tracker.isCTL then none
  else if raw = [42] then some { path := [42] }
  else match getScheme raw 0 [] raw with
    | none => none
    | some (scheme, rest) =>
      let u : URL := { scheme := lower scheme, rawQuery := (cut 63 rest).2.1 }
      let rest := (cut 63 rest).1
      if rest.head? ≠ some 47 ∧ u.scheme ≠ [] then some { u with opaq := rest }
      else if rest.head? ≠ some 47 ∧ (cut 47 rest).1.contains 58 then none
      else if (u.scheme ≠ [] ∨ rest.take 3 ≠ [47, 47, 47]) ∧ rest.take 2 = [47, 47] then
        let authority := (cut 47 (rest.drop 2)).1
        let path := rest.drop (2 + authority.length)
        match parseAuthority authority with
        | none => none
        | some (user, host) => setPath { u with user := user, host := host } path
      else setPath u rest

/-- `url.Parse` -/
def Parse (raw : Bytes) : Option URL := do
  let url ← parse (cut 35 raw).1
  let fragment ← unescape .plain (cut 35 raw).2.1
  some { url with fragment := fragment }

/-- `removeEmptyPort` (`net/http`): a colon behind everything, with no `]` behind it -/
def removeEmptyPort (host : Bytes) : Bytes := if host.getLast? = some 58 then host.dropLast else host

/-- `http.NewRequest("GET", raw, nil)`: the URL of the request -/
def NewRequest (raw : Bytes) : Option URL := do
  let u ← Parse raw
  some { u with host := removeEmptyPort u.host }

/-- `parseQuery`: one round of the loop -/
def queryPair (piece : Bytes) : Option (Bytes × Bytes) :=
  if piece.contains 59 then none
  else if piece = [] then none
  else do
    let key ← unescape .query (cut 61 piece).1
    let value ← unescape .query (cut 61 piece).2.1
    some (key, value)

/-- `parseQuery`: the loop.  What a round takes off is at least one byte, so as many rounds as there are bytes are enough. -/
def parseQuery : Nat → Bytes → List (Bytes × Bytes)
  | 0, _ => []
  | n + 1, query =>
    if query = [] then [] else
    match queryPair (cut 38 query).1 with
    | some p => p :: parseQuery n (cut 38 query).2.1
    | none => parseQuery n (cut 38 query).2.1

/-- `URL.Query` -/
def URL.Query (u : URL) : List (Bytes × Bytes) := parseQuery u.rawQuery.length u.rawQuery

/-- what the parameter `parse` of the model of the tracker stands for: `http.NewRequest`, then `URL.Query` -/
def announce (raw : Bytes) : Option (List (Bytes × Bytes)) := (NewRequest raw).map URL.Query

/-- `validEncoded` in mode `encodePath` -/
def validEncoded (s : Bytes) : Bool := s.all fun c => (ascii "!$&'()*+,;=:@[]%").contains c || pathByte c

/-- `URL.EscapedPath` -/
def URL.EscapedPath (u : URL) : Bytes :=
  if u.rawPath ≠ [] ∧ validEncoded u.rawPath = true ∧ unescape .plain u.rawPath = some u.path then u.rawPath
  else if u.path = [42] then [42]
  else escapePath u.path

/-- `URL.RequestURI` (without `ForceQuery`) -/
def URL.RequestURI (u : URL) : Bytes :=
  let result :=
    if u.opaq = [] then (if u.EscapedPath = [] then [47] else u.EscapedPath)
    else if u.opaq.take 2 = [47, 47] then u.scheme ++ [58] ++ u.opaq else u.opaq
  if u.rawQuery ≠ [] then result ++ [63] ++ u.rawQuery else result

/-- the checks of `http.Client.Do` in front of sending: the scheme, the host, no control characters in the request line.  `net` is the network: whether over TLS,
the host, the target of the request line. -/
def Do (net : Bool → Bytes → Bytes → Option Bytes) (u : URL) : Option Bytes :=
  if ¬ (u.scheme = ascii "http" ∨ u.scheme = ascii "https") then none
  else if u.host = [] then none
  else if u.RequestURI.any Tracker.isCTL then none
  else net (u.scheme = ascii "https") u.host u.RequestURI

/-- what the parameter `http` of the model of the tracker stands for, for this announce URL: `req.URL.RawQuery = …`, tracker.go:96, and `client.Do(req)` -/
def send (net : Bool → Bytes → Bytes → Option Bytes) (raw : Bytes) (query : Bytes) : Option Bytes :=
  match NewRequest raw with
  | some u => Do net { u with rawQuery := query }
  | none => none

end Verif.UrlParse
