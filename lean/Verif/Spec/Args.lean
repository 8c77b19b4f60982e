import Verif.Model.Go
/-
Command lines, and numbers on command lines, as documented for Go's `flag` package.
-/
set_option autoImplicit false

namespace Verif.Args

/-! ### numbers -/

/-- the character `c` is the digit `d` -/
def DigitVal (c : UInt8) (d : Nat) : Prop :=
  d < 10 ∧ c.toNat = 48 + d ∨ 10 ≤ d ∧ d < 36 ∧ (c.toNat = 87 + d ∨ c.toNat = 55 + d)

/-- digits in base `b` that follow digits of value `n`; `v` is the value of all of them.  There may be one underscore before each. -/
inductive Digits (b : Nat) : Nat → Bytes → Nat → Prop
  | nil (n : Nat) : Digits b n [] n
  | digit (n : Nat) (c : UInt8) (d : Nat) (s : Bytes) (v : Nat) (hc : DigitVal c d) (hd : d < b) (h : Digits b (n * b + d) s v) :
      Digits b n (c :: s) v
  | underscore (n : Nat) (c : UInt8) (d : Nat) (s : Bytes) (v : Nat) (hc : DigitVal c d) (hd : d < b) (h : Digits b (n * b + d) s v) :
      Digits b n (95 :: c :: s) v

/-- letters for the bases 2, 8 and 16 -/
inductive Base : UInt8 → Nat → Prop
  | b : Base 98 2
  | B : Base 66 2
  | o : Base 111 8
  | O : Base 79 8
  | x : Base 120 16
  | X : Base 88 16

/-- integer literals: decimal ones do not start with 0, octal ones do, `0b…`, `0o…`, `0x…` -/
inductive Numeral : Bytes → Nat → Prop
  | dec (c : UInt8) (d : Nat) (s : Bytes) (v : Nat) (hc : DigitVal c d) (h0 : 0 < d) (hd : d < 10) (h : Digits 10 d s v) : Numeral (c :: s) v
  | oct (s : Bytes) (v : Nat) (h : Digits 8 0 s v) : Numeral (48 :: s) v
  | pre (c : UInt8) (b : Nat) (s : Bytes) (v : Nat) (hb : Base c b) (hs : s ≠ []) (h : Digits b 0 s v) : Numeral (48 :: c :: s) v

/-! ### command lines -/

/-- an option starts with one or two dashes, it makes no difference -/
def Dash (s : Bytes) : Prop := s = ascii "-" ∨ s = ascii "--"

/-- the options of this program -/
def names : List Bytes := [ascii "i", ascii "w", ascii "p", ascii "cmd", ascii "u", ascii "d"]

/-- command lines and the settings they consist of, in order -/
inductive CmdLine : List Bytes → List (Bytes × Bytes) → Prop
  | nil : CmdLine [] []
  /-- the first argument that is not an option ends the options; the rest is ignored -/
  | word (a : Bytes) (rest : List Bytes) (h : a = ascii "-" ∨ a.head? ≠ some 45) : CmdLine (a :: rest) []
  | dashes (rest : List Bytes) : CmdLine (ascii "--" :: rest) []
  | two (dash name v : Bytes) (rest : List Bytes) (l : List (Bytes × Bytes)) (hd : Dash dash) (hn : name ∈ names) (h : CmdLine rest l) :
      CmdLine ((dash ++ name) :: v :: rest) ((name, v) :: l)
  | one (dash name v : Bytes) (rest : List Bytes) (l : List (Bytes × Bytes)) (hd : Dash dash) (hn : name ∈ names) (h : CmdLine rest l) :
      CmdLine ((dash ++ name ++ ascii "=" ++ v) :: rest) ((name, v) :: l)

/-- the value of an option: the last setting counts, `dflt` if there is none -/
def last (name : Bytes) : List (Bytes × Bytes) → Bytes → Bytes
  | [], dflt => dflt
  | (n, v) :: l, dflt => last name l (if n = name then v else dflt)

end Verif.Args
