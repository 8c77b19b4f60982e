import Verif.Model.Bencode
/-
Model of the parts of Go's `net/url` used by /repo/src/tracker/tracker.go:86-98: `QueryEscape`, `Values.Add`,
`Values.Encode`.  The maps from keys to lists of values are lists of pairs in the order of insertion.
-/
set_option autoImplicit false

namespace Verif.Url
open Verif.Bencode

/-- `net/url` `shouldEscape` in mode `encodeQueryComponent`, negated: letters, digits, `-`, `_`, `.`, `~` -/
def unreserved (c : UInt8) : Bool :=
  (97 ≤ c && c ≤ 122) || (65 ≤ c && c ≤ 90) || (48 ≤ c && c ≤ 57) || c == 45 || c == 95 || c == 46 || c == 126

/-- upper case hexadecimal digit -/
def hexDigit (n : UInt8) : UInt8 := if n < 10 then 48 + n else 55 + n

/-- one byte of `url.QueryEscape` -/
def escapeByte (c : UInt8) : Bytes :=
  if unreserved c then [c]
  else if c = 32 then [43]
  else [37, hexDigit (c / 16), hexDigit (c % 16)]

/-- `url.QueryEscape` -/
def QueryEscape (s : Bytes) : Bytes := (s.map escapeByte).flatten

/-- `url.Values.Add` -/
def Add (vs : List (Bytes × Bytes)) (key value : Bytes) : List (Bytes × Bytes) := vs ++ [(key, value)]

/-- `key=value`, both escaped -/
def encodePair (p : Bytes × Bytes) : Bytes := QueryEscape p.1 ++ [61] ++ QueryEscape p.2

/-- pairs separated by `&` -/
def joinPairs : List (Bytes × Bytes) → Bytes
  | [] => []
  | p :: rest => if rest = [] then encodePair p else encodePair p ++ [38] ++ joinPairs rest

/-- insertion by key, in front of the first greater key -/
def insertKey (p : Bytes × Bytes) : List (Bytes × Bytes) → List (Bytes × Bytes)
  | [] => [p]
  | q :: qs => if bytesLe p.1 q.1 && p.1 != q.1 then p :: q :: qs else q :: insertKey p qs

/-- pairs ordered by key, those with the same key in the order of insertion -/
def sortKeys (vs : List (Bytes × Bytes)) : List (Bytes × Bytes) := vs.foldl (fun acc p => insertKey p acc) []

/-- `url.Values.Encode` -/
def Encode (vs : List (Bytes × Bytes)) : Bytes := joinPairs (sortKeys vs)

end Verif.Url
