import Verif.Model.Go
/-
Specification of how a server reads the query string of a URL (application/x-www-form-urlencoded), of the compact peer
format (BEP 23) and of transfer counters.
-/
set_option autoImplicit false

namespace Verif.Query

/-- value of a hexadecimal digit -/
def hexVal (c : UInt8) : Option UInt8 :=
  if 48 ≤ c ∧ c ≤ 57 then some (c - 48)
  else if 65 ≤ c ∧ c ≤ 70 then some (c - 55)
  else if 97 ≤ c ∧ c ≤ 102 then some (c - 87)
  else none

/-- percent-decoding -/
def unescape : Bytes → Option Bytes
  | [] => some []
  | 37 :: h :: l :: rest =>
    match hexVal h, hexVal l, unescape rest with
    | some h, some l, some r => some ((h * 16 + l) :: r)
    | _, _, _ => none
  | 37 :: _ => none
  | 43 :: rest => (unescape rest).map (32 :: ·)
  | c :: rest => (unescape rest).map (c :: ·)

/-- the characters that stand for themselves in a query string (RFC 3986, section 2.3) -/
def Unreserved (c : UInt8) : Prop := c ∈ ascii "ABCDEFGHIJKLMNOPQRSTUVWXYZabcdefghijklmnopqrstuvwxyz0123456789-._~"

/-- a URL can only be parsed if it contains no control characters in front of the fragment, which begins with `#` -/
def NoControl (url : Bytes) : Prop := ∀ c ∈ url.takeWhile (· != 35), 32 ≤ c ∧ c ≠ 127

/-- pieces between separators (at least one) -/
def splitOn (sep : UInt8) : Bytes → List Bytes
  | [] => [[]]
  | c :: cs =>
    if c = sep then [] :: splitOn sep cs
    else match splitOn sep cs with
      | [] => [[c]]
      | w :: ws => (c :: w) :: ws

/-- `key=value` -/
def parsePair (s : Bytes) : Option (Bytes × Bytes) :=
  match splitOn 61 s with
  | [k, v] =>
    match unescape k, unescape v with
    | some k, some v => some (k, v)
    | _, _ => none
  | _ => none

/-- the parameters of a query string, in order -/
def parseQuery (s : Bytes) : Option (List (Bytes × Bytes)) := (splitOn 38 s).mapM parsePair

/-- the values given for a key, in order -/
def values (ps : List (Bytes × Bytes)) (k : Bytes) : List Bytes := (ps.filter fun p => p.1 == k).map Prod.snd

/-- the 6 bytes of a peer in a compact list: address and big-endian port -/
def compactPeer (a b c d : UInt8) (port : Nat) : Bytes := [a, b, c, d, UInt8.ofNat (port / 256), UInt8.ofNat (port % 256)]

/-- an update of the transfer counters -/
inductive Upd where
  | up (n : UInt64)
  | down (n : UInt64)
  | got (n : UInt64)

/-- bytes uploaded by an update -/
def Upd.upBytes : Upd → Nat
  | .up n => n.toNat
  | _ => 0

/-- bytes downloaded by an update -/
def Upd.downBytes : Upd → Nat
  | .down n => n.toNat
  | _ => 0

/-- bytes that are no longer needed after an update -/
def Upd.gotBytes : Upd → Nat
  | .got n => n.toNat
  | _ => 0

end Verif.Query
