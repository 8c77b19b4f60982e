import Verif.Model.Bencode
/-
Model of /repo/src/utils/utils.go:47-63 (`Bytes4Humans`) and of the two lines with the length in /repo/src/torrent/torrent.go:126-128.

Floating point numbers: the only rounding is in `float64(nbytes)` (to 53 significant bits, ties to even); the divisions by powers of 1024 are
exact, since the numbers are between 1 and 2^63.  So a number is kept as a fraction with a power of two below.
-/
set_option autoImplicit false

namespace Verif.Human
open Verif.Bencode

/-- division rounded to the nearest number, ties to even -/
def divRound (n d : Nat) : Nat :=
  if d < 2 * (n % d) ∨ (2 * (n % d) = d ∧ n / d % 2 = 1) then n / d + 1 else n / d

/-- conversion of a non-negative integer to float64: numbers of more than 53 bits are rounded to a multiple of a power of two -/
def roundNat (n : Nat) : Nat := if n < 2 ^ 53 then n else divRound n (2 ^ (n.log2 - 52)) * 2 ^ (n.log2 - 52)

/-- `float64(n)` -/
def float64 (n : Int) : Int := if n < 0 then -(roundNat n.natAbs : Int) else roundNat n.natAbs

/-- utils.go:58-61: the loop.  `n` is `asfloat / 1024^(exp+1)`, so `n >= 1024` says `asfloat >= 1024^(exp+2)`; `div` is an int64.
The first argument bounds the number of iterations. -/
def unitLoop (asfloat : Int) : Nat → Int → Nat → Res (Int × Nat)
  | 0, _, _ => .timeout
  | fuel + 1, div, exp =>
    if (1024 : Int) ^ (exp + 2) ≤ asfloat then unitLoop asfloat fuel (wrap64 (div * 1024)) (exp + 1)
    else .ok (div, exp)

/-- utils.go:49-63 `Bytes4Humans`: numerator and denominator of the number, and the unit.  `"KMGTPE"[exp]` panics from 6 on; the conversion of
`div` is exact for powers of two. -/
def Bytes4Humans (nbytes : Int) : Res (Int × Int × Bytes) :=
  if nbytes < 1024 then .ok (float64 nbytes, 1, ascii "B")
  else match unitLoop (float64 nbytes) 8 1024 0 with
    | .ok (div, exp) => match (ascii "KMGTPE")[exp]? with
      | some c => .ok (float64 nbytes, div, [c] ++ ascii "iB")
      | none => .panic
    | .err e => .err e
    | .panic => .panic
    | .timeout => .timeout

/-- `fmt` verb `%.02f` for the fraction `n/d` (strconv rounds the exact decimal expansion, ties to even) -/
def fixed2 (n : Int) (d : Nat) : Bytes :=
  (if n < 0 then ascii "-" else []) ++ natDec (divRound (100 * n.natAbs) d / 100) ++ ascii "." ++
    natDec (divRound (100 * n.natAbs) d / 10 % 10) ++ natDec (divRound (100 * n.natAbs) d % 10)

/-- strconv.FormatInt -/
def intDec (n : Int) : Bytes := (if n < 0 then ascii "-" else []) ++ natDec n.natAbs

/-- torrent.go:126-128: the two lines with the length -/
def lengthLines (len : Int) : Res Bytes :=
  match Bytes4Humans len with
  | .ok (n, d, u) => .ok (ascii "   Length: [" ++ fixed2 n d.toNat ++ ascii " " ++ u ++ ascii "]\n   Length: [" ++ intDec len ++ ascii " b]")
  | .err e => .err e
  | .panic => .panic
  | .timeout => .timeout

end Verif.Human
