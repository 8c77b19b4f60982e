import Verif.Model.Tracker
import Verif.Model.UrlParse
/-
The body of the tracker's answer: `client.Do` and `ioutil.ReadAll(resp.Body)`, tracker.go:101-111.  Go 1.18: `net/http/transfer.go` (`readTransfer`, `body.readLocked`, `body.readTrailer`) and
`net/http/internal/chunked.go`, over HTTP/1.

A connection is what it brings after the head of the answer, and how it ends; in how many segments the bytes come makes no difference to the readers of Go, which read from a `bufio.Reader` of
4096 bytes until they have what they need.  Not modelled: the parsing of the head, compressed answers (`Content-Encoding: gzip`, which the client asks for and undoes), HTTP/2.
-/
set_option autoImplicit false

namespace Verif.Body
open Verif.Tracker Verif.UrlParse Verif.Peer

/-- what comes after the last byte: the other side closes the connection, the connection breaks, or nothing at all (the client has no time limit, tracker.go:101) -/
inductive End where
  | eof
  | broken
  | silent
  deriving DecidableEq

/-- how the end of the body is known: `Content-Length`, `Transfer-Encoding: chunked`, or the end of the connection -/
inductive Framing where
  | length (n : Nat)
  | chunked
  | close
  deriving DecidableEq

/-- what `ioutil.ReadAll` comes to -/
inductive Got where
  | body (b : Bytes)
  | failed
  | waiting
  deriving DecidableEq

/-- the head of an answer, as far as it matters: `length` is `Content-Length` -/
structure Head where
  status : Nat
  chunked : Bool
  length : Option Nat

/-- `readTransfer` with `fixLength` and `bodyAllowedForStatus`, for the answer to a GET request -/
def framing (h : Head) : Framing :=
  if 100 ≤ h.status ∧ h.status ≤ 199 ∨ h.status = 204 ∨ h.status = 304 then .length 0
  else if h.chunked = true then .chunked
  else match h.length with
    | some n => .length n
    | none => .close

/-- more bytes are needed than there are -/
def short : End → Got
  | .silent => .waiting
  | _ => .failed

/-- `body.readLocked` over `io.LimitedReader`: an early end is `io.ErrUnexpectedEOF` -/
def readLength (n : Nat) (data : Bytes) (e : End) : Got := if n ≤ data.length then .body (data.take n) else short e

/-- `body.readLocked` up to the end of the connection -/
def readClose (data : Bytes) (e : End) : Got :=
  match e with
  | .eof => .body data
  | e => short e

/-- `parseHexUint`: one digit -/
def hexDigit (c : UInt8) : Option Nat :=
  if 48 ≤ c ∧ c ≤ 57 then some (c.toNat - 48)
  else if 97 ≤ c ∧ c ≤ 102 then some (c.toNat - 87)
  else if 65 ≤ c ∧ c ≤ 70 then some (c.toNat - 55)
  else none

/-- `parseHexUint`: the loop, from digit `i` on -/
def parseHex : Nat → Nat → Bytes → Option Nat
  | _, n, [] => some n
  | i, n, c :: cs => match hexDigit c with
    | none => none
    | some d => if i = 16 then none else parseHex (i + 1) (16 * n + d) cs

/-- `isASCIISpace` -/
def isSpace (c : UInt8) : Bool := c = 32 || c = 9 || c = 10 || c = 13

/-- `trimTrailingWhitespace` -/
def trimRight (l : Bytes) : Bytes := (l.reverse.dropWhile isSpace).reverse

/-- `removeChunkExtension` and `parseHexUint`, behind `trimTrailingWhitespace` -/
def chunkSize (line : Bytes) : Option Nat := parseHex 0 0 (cut 59 (trimRight line)).1

/-- how many bytes there are up to the first blank line, with the two bytes in front of it: `seeUpcomingDoubleCRLF`, `k` bytes having been looked at -/
def doubleCRLF : Nat → Bytes → Option Nat
  | k, 13 :: 10 :: 13 :: 10 :: _ => some (k + 4)
  | k, _ :: cs => doubleCRLF (k + 1) cs
  | _, [] => none

/-- `body.readTrailer`: what follows the last chunk.  `mime` says whether `ReadMIMEHeader` accepts the lines up to the blank line. -/
def readTrailer (mime : Bytes → Bool) (data : Bytes) (e : End) (b : Bytes) : Got :=
  if data.length < 2 then short e
  else if data.take 2 = [13, 10] then .body b
  else match doubleCRLF 0 data with
    | some k => if k ≤ 4096 then (if mime (data.take k) = true then .body b else .failed) else .failed
    | none => if 4096 ≤ data.length then .failed else short e

/-- `chunkedReader.Read` until its end; the first number is one more than the bytes there are, each chunk takes at least one; `b` is what has been read -/
def readChunks (mime : Bytes → Bool) : Nat → Bytes → End → Bytes → Got
  | 0, _, _, _ => .failed
  | f + 1, data, e, b =>
    match data.idxOf? 10 with
    | none => if 4096 ≤ data.length then .failed else short e
    | some p =>
      if 4096 ≤ p + 1 then .failed
      else match chunkSize (data.take (p + 1)) with
        | none => .failed
        | some 0 => readTrailer mime (data.drop (p + 1)) e b
        | some (n + 1) =>
          let rest := data.drop (p + 1)
          if rest.length < n + 1 + 2 then short e
          else if (rest.drop (n + 1)).take 2 = [13, 10] then readChunks mime f (rest.drop (n + 1 + 2)) e (b ++ rest.take (n + 1))
          else .failed

/-- `ioutil.ReadAll(resp.Body)`, tracker.go:108 -/
def readBody (mime : Bytes → Bool) (f : Framing) (data : Bytes) (e : End) : Got :=
  match f with
  | .length n => readLength n data e
  | .chunked => readChunks mime (data.length + 1) data e []
  | .close => readClose data e

/-- tracker.go:100-129 `do`, from the head of the answer on; `spare` is what is behind the body in its slice -/
def answer (v6 : IP → Bytes) (parseIP : Bytes → IP) (mime : Bytes → Bool) (h : Head) (data : Bytes) (e : End) (spare : Bytes) : Res Response :=
  match readBody mime (framing h) data e with
  | .body b => doRequest v6 parseIP (some b) spare
  | .failed => doRequest v6 parseIP none spare
  | .waiting => .timeout

end Verif.Body
