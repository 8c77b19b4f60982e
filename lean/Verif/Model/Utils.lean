import Verif.Model.Bencode
/-
Model of /repo/src/utils/utils.go and of the option handling in /repo/src/utils/opts.go.
Bytes4Humans is in Model/Human.lean, the `flag` package in Model/Flags.lean.  Not modelled: Spinner (only prints).
SHA-1 is the parameter `H`.
-/
set_option autoImplicit false

namespace Verif.Utils
open Verif.Bencode

/-! ### utils.go -/

/-- utils.go:96-107: the loop of `SegmentData`; the first argument bounds the number of iterations.
`data[idx:idx+toWrite]` panics for bad bounds. -/
def segLoop (data : Bytes) (segSize : Int) : Nat → Int → Int → List Bytes → Res (List Bytes)
  | 0, _, _, _ => .timeout
  | fuel + 1, idx, left, pieces =>
    if left = 0 then .ok pieces
    else
      if idx + (if left < segSize then left else segSize) < idx ∨
          idx + (if left < segSize then left else segSize) > data.length ∨ idx < 0 then .panic
      else segLoop data segSize fuel (idx + (if left < segSize then left else segSize))
        (left - (if left < segSize then left else segSize))
        (pieces ++ [(data.drop idx.toNat).take (if left < segSize then left else segSize).toNat])

/-- utils.go:90-109 `SegmentData`; division by zero and `make` with a negative capacity panic.  Every iteration
consumes at least one byte (or panics), so `len(data)+1` iterations suffice. -/
def SegmentData (data : Bytes) (segSize : Int) : Res (List Bytes) :=
  if segSize = 0 then .panic
  else if (data.length : Int).tdiv segSize + 1 < 0 then .panic
  else segLoop data segSize (data.length + 1) 0 data.length []

/-- utils.go:117-123 `HashSlices` -/
def HashSlices (H : Bytes → Bytes) (pieces : List Bytes) : Bytes := (pieces.map H).flatten

/-- utils.go:127-130 `RemoveSwap`: the returned slice -/
def RemoveSwap {α : Type} (slice : List α) (index : Int) : Res (List α) :=
  if index < 0 then .panic
  else if h : index.toNat < slice.length then
    .ok ((slice.set index.toNat (slice[slice.length - 1]'(by omega))).take (slice.length - 1))
  else .panic

/-- utils.go:27 -/
def letterBytes : Bytes := ascii "abcdefghijklmnopqrstuvwxyzABCDEFGHIJKLMNOPQRSTUVWXYZ"

/-- utils.go:32-42: the loop of `randStringBytesMaskImprSrcSB`.  `src t` is what the `t`-th call of `Int63` returns
(a number below 2^63); the first argument bounds the number of iterations, `i` is the number of letters still to be
written (Go's `i+1`). -/
def randLoop (src : Nat → Nat) : Nat → (t i cache remain : Nat) → Bytes → Res Bytes
  | 0, _, _, _, _, _ => .timeout
  | fuel + 1, t, i, cache, remain, sb =>
    if i = 0 then .ok sb
    else if remain = 0 then
      -- utils.go:33-35 then one round with the new cache
      (match letterBytes[src t % 64]? with
       | some c => randLoop src fuel (t + 1) (i - 1) (src t / 64) 9 (sb ++ [c])
       | none => randLoop src fuel (t + 1) i (src t / 64) 9 sb)
    else
      (match letterBytes[cache % 64]? with
       | some c => randLoop src fuel t (i - 1) (cache / 64) (remain - 1) (sb ++ [c])
       | none => randLoop src fuel t i (cache / 64) (remain - 1) sb)

/-- utils.go:13-15 `NewPeerId`, utils.go:20-45 -/
def NewPeerId (fuel : Nat) (src : Nat → Nat) : Res Bytes := do
  let s ← randLoop src fuel 1 12 (src 0) 10 []
  .ok (ascii "-GT0000-" ++ s)

/-! ### opts.go -/

/-- `strings.ToUpper` on ASCII (opts.go:95).  Simplification: bytes above 127 are left alone.  No non-ASCII character
has a digit, '-', B, K, M or G as its upper case form, so arguments with such bytes are rejected in both. -/
def upper (c : UInt8) : UInt8 := if 97 ≤ c ∧ c ≤ 122 then c - 32 else c

/-- opts.go:123-148: the part of `parseSizeUnits` behind the number -/
def unitPart (val : Int) (rest : Bytes) : Res Int :=
  match rest with
  | [] => .ok val
  | [c] =>
    if c = 66 then .ok val
    else if c = 75 then .ok (wrap64 (val * 1024))
    else if c = 77 then .ok (wrap64 (wrap64 (val * 1024) * 1024))
    else if c = 71 then .ok (wrap64 (wrap64 (wrap64 (val * 1024) * 1024) * 1024))
    else .err .other
  | _ => .err .other

/-- opts.go:108-149: `parseSizeUnits` behind the sign -/
def sizeBody (mult : Int) (s : Bytes) : Res Int :=
  match parseDigits (s.takeWhile isDigit) with
  | none => .err .strconv
  | some v => unitPart (wrap64 (v * mult)) (s.dropWhile isDigit)

/-- opts.go:94-149 `parseSizeUnits` -/
def parseSizeUnits (str : Bytes) : Res Int :=
  match str.map upper with
  | [] => .err .other
  | c :: rest => if c = 45 then sizeBody (-1) rest else sizeBody 1 (c :: rest)

/-- opts.go:17-27; the flag values and the parsed limits -/
structure Opts where
  input : Bytes
  wd : Bytes
  port : Nat
  cmd : Bytes
  uplimStr : Bytes
  dnlimStr : Bytes
  uplim : Int
  dnlim : Int
  deriving DecidableEq

/-- opts.go:59-92 `Validate` (the receiver and the global `opts` are the same object there) -/
def Opts.Validate (o : Opts) : Res Opts :=
  if o.input = [] then .err .other
  else if o.input = [] then .err .other
  else if ¬ (o.cmd = ascii "swarm" ∨ o.cmd = ascii "info") then .err .other
  else do
    let u ← parseSizeUnits o.uplimStr
    let d ← parseSizeUnits o.dnlimStr
    .ok { o with uplim := u, dnlim := d }

/-- opts.go:159-161 `Port` -/
def Opts.Port (o : Opts) : Nat := o.port % 65536

end Verif.Utils
