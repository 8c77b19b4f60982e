import Verif.Model.Go
/-
SHA-1 (FIPS 180-4), which /repo takes from Go's standard library (utils.go:111-115 `SHA1`, `crypto/sha1`).  The theorems hold for every function in
its place (parameter `H`); this definition is for the tests with real torrent files and for instances of the theorems.
-/
set_option autoImplicit false

namespace Verif.Sha1

/-- FIPS 180-4, 3.2: rotation to the left -/
def rotl (k : UInt32) (w : UInt32) : UInt32 := (w <<< k) ||| (w >>> (32 - k))

/-- big-endian word of four bytes -/
def word (a b c d : UInt8) : UInt32 := (a.toUInt32 <<< 24) ||| (b.toUInt32 <<< 16) ||| (c.toUInt32 <<< 8) ||| d.toUInt32

/-- the bytes of a word -/
def bytesOf (w : UInt32) : Bytes := [(w >>> 24).toUInt8, (w >>> 16).toUInt8, (w >>> 8).toUInt8, w.toUInt8]

/-- 5.1.1: the length in bits, in eight bytes -/
def lengthBytes (n : Nat) : Bytes := (List.range 8).map fun i => UInt8.ofNat (8 * n / 256 ^ (7 - i))

/-- 5.1.1: padding to a multiple of 64 bytes -/
def pad (m : Bytes) : Bytes := m ++ 128 :: List.replicate ((119 - m.length % 64) % 64) 0 ++ lengthBytes m.length

/-- 5.2.1: the words of the padded message -/
def words : Bytes → List UInt32
  | a :: b :: c :: d :: rest => word a b c d :: words rest
  | _ => []

/-- 6.1.2, step 1: the message schedule, latest word first -/
def expand : Nat → List UInt32 → List UInt32
  | 0, ws => ws
  | n + 1, ws => expand n (rotl 1 (ws.getD 2 0 ^^^ ws.getD 7 0 ^^^ ws.getD 13 0 ^^^ ws.getD 15 0) :: ws)

/-- the five working variables -/
structure Vars where
  a : UInt32
  b : UInt32
  c : UInt32
  d : UInt32
  e : UInt32
  deriving DecidableEq, Repr

/-- 4.1.1 and 4.2.1: function and constant of round `t` -/
def fk (t : Nat) (b c d : UInt32) : UInt32 :=
  if t < 20 then ((b &&& c) ^^^ (~~~b &&& d)) + 0x5a827999
  else if t < 40 then (b ^^^ c ^^^ d) + 0x6ed9eba1
  else if t < 60 then ((b &&& c) ^^^ (b &&& d) ^^^ (c &&& d)) + 0x8f1bbcdc
  else (b ^^^ c ^^^ d) + 0xca62c1d6

/-- 6.1.2, step 3: the rounds from `t` on -/
def rounds : Nat → List UInt32 → Vars → Vars
  | _, [], v => v
  | t, w :: ws, v => rounds (t + 1) ws ⟨rotl 5 v.a + fk t v.b v.c v.d + v.e + w, v.a, rotl 30 v.b, v.c, v.d⟩

/-- 6.1.2, step 4 -/
def Vars.add (x y : Vars) : Vars := ⟨x.a + y.a, x.b + y.b, x.c + y.c, x.d + y.d, x.e + y.e⟩

/-- one block of sixteen words -/
def block (v : Vars) (ws : List UInt32) : Vars := v.add (rounds 0 (expand 64 ws.reverse).reverse v)

/-- all blocks; `n` bounds their number -/
def blocks : Nat → List UInt32 → Vars → Vars
  | 0, _, v => v
  | n + 1, ws, v => if ws.length = 0 then v else blocks n (ws.drop 16) (block v (ws.take 16))

/-- 5.3.1 -/
def start : Vars := ⟨0x67452301, 0xefcdab89, 0x98badcfe, 0x10325476, 0xc3d2e1f0⟩

/-- the digest as bytes -/
def digest (v : Vars) : Bytes := bytesOf v.a ++ bytesOf v.b ++ bytesOf v.c ++ bytesOf v.d ++ bytesOf v.e

/-- utils.go:111-115 `SHA1` -/
def sha1 (m : Bytes) : Bytes := digest (blocks ((pad m).length / 64) (words (pad m)) start)

/-- the digest has 20 bytes -/
theorem sha1_length (m : Bytes) : (sha1 m).length = 20 := rfl

end Verif.Sha1
