import Verif.Model.Peer
/-
Model of the parts of Go's package `net` (1.18) that turn addresses into text and back: `IP.String` (ip.go), `ParseIP` (ip.go) with `dtoi`, `xtoi` and
`appendHex` (parse.go).  The program uses them in /repo/src/peer/info.go:17-30 and /repo/src/tracker/response.go (list form of the peers).  Elsewhere
in the model they are the parameters `v6` (the text of addresses that are not IPv4) and `parseIP`.
-/
set_option autoImplicit false

namespace Verif.NetIP
open Verif.Bencode Verif.Peer

/-- parse.go: `big`, no number is as large as this -/
def big : Nat := 0xFFFFFF

/-- parse.go: `dtoi` after `i` digits of value `n`; the value, the number of digits and what is behind them -/
def dtoi : Nat → Nat → Bytes → Option (Nat × Nat × Bytes)
  | n, i, [] => if i = 0 then none else some (n, i, [])
  | n, i, c :: r =>
    if 48 ≤ c ∧ c ≤ 57 then
      if n * 10 + (c.toNat - 48) ≥ big then none else dtoi (n * 10 + (c.toNat - 48)) (i + 1) r
    else if i = 0 then none else some (n, i, c :: r)

/-- value of a hexadecimal digit, in the order of the cases of `xtoi` -/
def hexDigit (c : UInt8) : Option Nat :=
  if 48 ≤ c ∧ c ≤ 57 then some (c.toNat - 48)
  else if 97 ≤ c ∧ c ≤ 102 then some (c.toNat - 97 + 10)
  else if 65 ≤ c ∧ c ≤ 70 then some (c.toNat - 65 + 10)
  else none

/-- parse.go: `xtoi` after `i` digits of value `n` -/
def xtoi : Nat → Nat → Bytes → Option (Nat × Bytes)
  | n, i, [] => if i = 0 then none else some (n, [])
  | n, i, c :: r =>
    match hexDigit c with
    | some d => if n * 16 + d ≥ big then none else xtoi (n * 16 + d) (i + 1) r
    | none => if i = 0 then none else some (n, c :: r)

/-- ip.go: one round of the loop of `parseIPv4`; whether it is the first, and the rest of the text -/
def v4Part (first : Bool) (s : Bytes) : Option (UInt8 × Bytes) :=
  match (if first then some s else match s with
    | 46 :: r => some r
    | _ => none) with
  | none => none
  | some s =>
    match dtoi 0 0 s with
    | none => none
    | some (n, c, r) =>
      if n > 255 then none
      else if c > 1 ∧ s.head? = some 48 then none
      else some (UInt8.ofNat n, r)

/-- ip.go: `parseIPv4`; `none` is nil -/
def parseIPv4 (s : Bytes) : Option IP :=
  match v4Part true s with
  | none => none
  | some (a, s) => match v4Part false s with
    | none => none
    | some (b, s) => match v4Part false s with
      | none => none
      | some (c, s) => match v4Part false s with
        | none => none
        | some (d, s) => if s = [] then some (IPv4 a b c d) else none

/-- the two bytes of a group -/
def pair (n : Nat) : Bytes := [UInt8.ofNat (n / 256), UInt8.ofNat (n % 256)]

/-- ip.go: the loop of `parseIPv6`; the number of groups that there is room for, the bytes so far, the position of the ellipsis and the rest of the text.
It returns the bytes, the position and what is left of the text. -/
def v6Loop : Nat → Bytes → Option Nat → Bytes → Option (Bytes × Option Nat × Bytes)
  | 0, acc, ell, s => some (acc, ell, s)
  | k + 1, acc, ell, s =>
    match xtoi 0 0 s with
    | none => none
    | some (n, rest) =>
      if n > 0xFFFF then none
      else match rest with
        | [] => some (acc ++ pair n, ell, [])
        | c :: r =>
          if c = 46 then
            if ell = none ∧ acc.length ≠ 12 then none
            else if acc.length + 4 > 16 then none
            else match parseIPv4 s with
              | none => none
              | some ip4 => some (acc ++ ip4.drop 12, ell, [])
          else if c ≠ 58 then none
          else match r with
            | [] => none
            | d :: r' =>
              if d = 58 then
                if ell ≠ none then none
                else if r' = [] then some (acc ++ pair n, some (acc.length + 2), [])
                else v6Loop k (acc ++ pair n) (some (acc.length + 2)) r'
              else v6Loop k (acc ++ pair n) ell (d :: r')

/-- ip.go: the end of `parseIPv6` -/
def v6End (x : Bytes × Option Nat × Bytes) : Option IP :=
  if x.2.2 ≠ [] then none
  else if x.1.length < 16 then
    match x.2.1 with
    | none => none
    | some e => some (x.1.take e ++ List.replicate (16 - x.1.length) 0 ++ x.1.drop e)
  else if x.2.1 ≠ none then none
  else some x.1

/-- ip.go: `parseIPv6` -/
def parseIPv6 (s : Bytes) : Option IP :=
  match s with
  | 58 :: 58 :: r => if r = [] then some (List.replicate 16 0) else (v6Loop 8 [] (some 0) r).bind v6End
  | _ => (v6Loop 8 [] none s).bind v6End

/-- ip.go: `ParseIP`, the search for the first dot or colon; `all` is the whole text -/
def parseScan (all : Bytes) : Bytes → Option IP
  | [] => none
  | c :: r => if c = 46 then parseIPv4 all else if c = 58 then parseIPv6 all else parseScan all r

/-- ip.go: `ParseIP`; nil is the empty list -/
def ParseIP (s : Bytes) : IP := (parseScan s s).getD []

/-- lower case hexadecimal digit -/
def hexChar (n : Nat) : UInt8 := if n < 10 then UInt8.ofNat (48 + n) else UInt8.ofNat (87 + n)

/-- parse.go: the loop of `appendHex` from digit `j` on -/
def hexLoop (i : Nat) : Nat → Bytes
  | 0 => []
  | j + 1 => (if i >>> (j * 4) > 0 then [hexChar (i >>> (j * 4) % 16)] else []) ++ hexLoop i j

/-- parse.go: `appendHex` -/
def appendHex (i : Nat) : Bytes := if i = 0 then [48] else hexLoop i 8

/-- the groups of an address, `(uint32(p[i])<<8)|uint32(p[i+1])` -/
def groups : IP → List Nat
  | a :: b :: r => (a.toNat * 256 + b.toNat) :: groups r
  | _ => []

/-- number of zeros at the beginning -/
def zeros : List Nat → Nat
  | 0 :: r => zeros r + 1
  | _ => 0

/-- ip.go: the search for the longest run of zeros in `IP.String`, from group `i` on; start and length of the longest one so far -/
def longest : Nat → Nat → List Nat → Nat × Nat → Nat × Nat
  | 0, _, _, best => best
  | _, _, [], best => best
  | f + 1, i, g :: gs, best =>
    if zeros (g :: gs) > best.2 then longest f (i + zeros (g :: gs) + 1) ((g :: gs).drop (zeros (g :: gs) + 1)) (i, zeros (g :: gs))
    else longest f (i + 1) gs best

/-- ip.go: the loop of `IP.String` that prints the groups, from group `i` on; the run of zeros from `e.1` up to `e.2` is left out -/
def printLoop (gs : List Nat) (e : Option (Nat × Nat)) : Nat → Nat → Bytes
  | 0, _ => []
  | f + 1, i =>
    if i ≥ 8 then []
    else if e.map Prod.fst = some i then
      [58, 58] ++ (if (e.map Prod.snd).getD 0 ≥ 8 then []
        else appendHex (gs.getD ((e.map Prod.snd).getD 0) 0) ++ printLoop gs e f ((e.map Prod.snd).getD 0 + 1))
    else (if i > 0 then [58] else []) ++ appendHex (gs.getD i 0) ++ printLoop gs e f (i + 1)

/-- ip.go: `IP.String` for addresses that are not IPv4 and not nil; `hexString` for lengths that no address has -/
def v6 (ip : IP) : Bytes :=
  if ip.length ≠ 16 then ascii "?" ++ (ip.map fun b => [hexChar (b.toNat / 16), hexChar (b.toNat % 16)]).flatten
  else
    printLoop (groups ip)
      (if (longest 9 0 (groups ip) (0, 0)).2 ≤ 1 then none
       else some ((longest 9 0 (groups ip) (0, 0)).1, (longest 9 0 (groups ip) (0, 0)).1 + (longest 9 0 (groups ip) (0, 0)).2)) 9 0

/-- ip.go: `IP.String` -/
def String (ip : IP) : Bytes := ipString v6 ip

end Verif.NetIP
