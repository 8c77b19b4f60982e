import Verif.Spec.Args
import Verif.Spec.Size
/-
What there is to say about a command line that is not accepted.
-/
set_option autoImplicit false

namespace Verif.OptsText.Spec
open Verif.Args Verif.Size

/-! ### texts in quotation marks -/

/-- how a character is written between quotation marks in Go; only for ASCII -/
inductive QuotedChar : UInt8 → Bytes → Prop
  /-- printable characters stand for themselves, but quotation marks and backslashes get a backslash -/
  | plain (c : UInt8) (h : 32 ≤ c.toNat ∧ c.toNat < 127) (h1 : c ≠ 34) (h2 : c ≠ 92) : QuotedChar c [c]
  | escaped (c : UInt8) (h : c = 34 ∨ c = 92) : QuotedChar c [92, c]
  /-- seven control characters have a letter -/
  | letter (c l : UInt8) (h : (c, l) ∈ [(7, 97), (8, 98), (9, 116), (10, 110), (11, 118), (12, 102), (13, 114)]) : QuotedChar c [92, l]
  /-- the others are `\x` and two digits -/
  | hex (c x y : UInt8) (h : c.toNat < 7 ∨ 13 < c.toNat ∧ c.toNat < 32 ∨ c.toNat = 127) (hx : x ∈ ascii "0123456789abcdef") (hy : y ∈ ascii "0123456789abcdef")
      (dx dy : Nat) (h1 : DigitVal x dx) (h2 : DigitVal y dy) (hc : c.toNat = 16 * dx + dy) : QuotedChar c [92, 120, x, y]

/-- the characters of a text, one after the other -/
inductive QuotedChars : Bytes → Bytes → Prop
  | nil : QuotedChars [] []
  | cons (c : UInt8) (s q t : Bytes) (hc : QuotedChar c q) (h : QuotedChars s t) : QuotedChars (c :: s) (q ++ t)

/-! ### numbers that are not accepted -/

/-- digits in base `b` with underscores anywhere, that follow digits of value `n` -/
inductive Run (b : Nat) : Nat → Bytes → Nat → Prop
  | nil (n : Nat) : Run b n [] n
  | digit (n : Nat) (c : UInt8) (d : Nat) (s : Bytes) (v : Nat) (hc : DigitVal c d) (hd : d < b) (h : Run b (n * b + d) s v) : Run b n (c :: s) v
  | underscore (n : Nat) (s : Bytes) (v : Nat) (h : Run b n s v) : Run b n (95 :: s) v

/-- a text starts like a number in base `b`; `ds` is the place of the digits -/
inductive Begins : Bytes → Nat → Bytes → Prop
  | dec (s : Bytes) (h : s.head? ≠ some 48) : Begins s 10 s
  /-- unless a letter for a base and something else follow -/
  | oct (s : Bytes) (h : ∀ c b t, Base c b → s = c :: t → t = []) : Begins (48 :: s) 8 s
  | pre (c : UInt8) (b : Nat) (s : Bytes) (hb : Base c b) (hs : s ≠ []) : Begins (48 :: c :: s) b s

/-- the first digits already stand for a number that has no place in 64 bits, whatever comes then -/
def TooLarge (s : Bytes) : Prop := ∃ b ds p t v, Begins s b ds ∧ ds = p ++ t ∧ Run b 0 p v ∧ 2 ^ 64 ≤ v

/-- what is wrong with a number -/
inductive BadNumber : Bytes → Bytes → Prop
  | large (s : Bytes) (h : TooLarge s) : BadNumber s (ascii "value out of range")
  | garbled (s : Bytes) (h : ¬ TooLarge s) (h1 : ∀ v, ¬ Numeral s v) : BadNumber s (ascii "parse error")

/-- a number that is accepted -/
def GoodNumber (s : Bytes) : Prop := ∃ v, Numeral s v ∧ v < 2 ^ 64

/-! ### arguments that are not accepted -/

/-- three dashes, or an equals sign where the name should be -/
def Malformed (arg : Bytes) : Prop := ∃ r, arg = ascii "---" ++ r ∨ arg = ascii "-=" ++ r ∨ arg = ascii "--=" ++ r

/-- an argument that has the form of an option with this name -/
def Names (arg name : Bytes) : Prop := name ≠ [] ∧ name.head? ≠ some 45 ∧ 61 ∉ name ∧
  ∃ dash, Dash dash ∧ (arg = dash ++ name ∨ ∃ v, arg = dash ++ name ++ ascii "=" ++ v)

/-- one option with its value, in the form of two arguments or of one -/
inductive Setting : List Bytes → Bytes → Bytes → Prop
  | two (dash name v : Bytes) (hd : Dash dash) (hn : name ∈ names) : Setting [dash ++ name, v] name v
  | one (dash name v : Bytes) (hd : Dash dash) (hn : name ∈ names) : Setting [dash ++ name ++ ascii "=" ++ v] name v

/-- settings that are accepted -/
inductive Settings : List Bytes → Prop
  | nil : Settings []
  | cons (s rest : List Bytes) (name v : Bytes) (h : Setting s name v) (hp : name = ascii "p" → GoodNumber v) (hr : Settings rest) : Settings (s ++ rest)

/-- what is wrong with what comes after settings that are accepted; `q` is a way to write texts with quotation marks -/
inductive Wrong (q : Bytes → Bytes) : List Bytes → Bytes → Prop
  | malformed (arg : Bytes) (rest : List Bytes) (h : Malformed arg) : Wrong q (arg :: rest) (ascii "bad flag syntax: " ++ arg)
  | unknown (arg name : Bytes) (rest : List Bytes) (h : Names arg name) (hn : name ∉ names) (hh : name ≠ ascii "help" ∧ name ≠ ascii "h") :
      Wrong q (arg :: rest) (ascii "flag provided but not defined: -" ++ name)
  | missing (dash name : Bytes) (hd : Dash dash) (hn : name ∈ names) : Wrong q [dash ++ name] (ascii "flag needs an argument: -" ++ name)
  | number (s rest : List Bytes) (v why : Bytes) (h : Setting s (ascii "p") v) (hw : BadNumber v why) :
      Wrong q (s ++ rest) (ascii "invalid value " ++ q v ++ ascii " for flag -p: " ++ why)

/-- the first thing that is wrong with a command line -/
def Fault (q : Bytes → Bytes) (args : List Bytes) (line : Bytes) : Prop := ∃ front rest, args = front ++ rest ∧ Settings front ∧ Wrong q rest line

/-- `-h` or `-help` at a place where an option may be -/
def AsksHelp (args : List Bytes) : Prop := ∃ front arg name rest, args = front ++ arg :: rest ∧ Settings front ∧ Names arg name ∧
  (name = ascii "help" ∨ name = ascii "h")

/-! ### settings that are not accepted -/

/-- one character, and its upper case has one byte: an ASCII character or one of the two with an ASCII upper case, U+0131 and U+017F -/
def Lone (s : Bytes) : Prop := (∃ c, s = [c] ∧ c.toNat < 128) ∨ s = [196, 177] ∨ s = [197, 191]

/-- what is wrong with a size -/
inductive BadSize : Bytes → Bytes → Prop
  | empty : BadSize [] (ascii "empty string")
  | noNumber (sign s : Bytes) (hs : sign = [] ∨ sign = ascii "-") (hn : sign ++ s ≠ []) (h : ∀ c, s.head? = some c → ¬ (48 ≤ c ∧ c ≤ 57)) (hd : sign = [] → s.head? ≠ some 45) :
      BadSize (sign ++ s) (ascii "strconv.Atoi: parsing \"\": invalid syntax")
  | large (sign ds s : Bytes) (hs : sign = [] ∨ sign = ascii "-") (hd : ∀ c ∈ ds, 48 ≤ c ∧ c ≤ 57) (h : ∀ c, s.head? = some c → ¬ (48 ≤ c ∧ c ≤ 57))
      (hl : 2 ^ 63 ≤ decVal ds) : BadSize (sign ++ ds ++ s) (ascii "strconv.Atoi: parsing \"" ++ ds ++ ascii "\": value out of range")
  | format (sign ds s : Bytes) (hs : sign = [] ∨ sign = ascii "-") (hn : ds ≠ []) (hd : ∀ c ∈ ds, 48 ≤ c ∧ c ≤ 57) (h : ∀ c, s.head? = some c → ¬ (48 ≤ c ∧ c ≤ 57))
      (hl : decVal ds < 2 ^ 63) (h0 : s ≠ []) (h1 : ¬ Lone s) : BadSize (sign ++ ds ++ s) (ascii "invalid format")
  | units (sign ds s : Bytes) (hs : sign = [] ∨ sign = ascii "-") (hn : ds ≠ []) (hd : ∀ c ∈ ds, 48 ≤ c ∧ c ≤ 57) (h : ∀ c, s.head? = some c → ¬ (48 ≤ c ∧ c ≤ 57))
      (hl : decVal ds < 2 ^ 63) (h1 : Lone s) (h2 : ∀ k, ¬ Size.Unit s k) : BadSize (sign ++ ds ++ s) (ascii "invalid units")

/-- a size that is accepted -/
def GoodSize (s : Bytes) : Prop := ∃ m v, Denotes s m v ∧ m < 2 ^ 63

/-- the first thing that is wrong with the settings of a command line -/
inductive Complaint (l : List (Bytes × Bytes)) : Bytes → Prop
  | input (h : last (ascii "i") l [] = []) : Complaint l (ascii "missing argument 'input'")
  | command (c : Bytes) (hi : last (ascii "i") l [] ≠ []) (hc : c = last (ascii "cmd") l (ascii "swarm")) (h : c ≠ ascii "swarm" ∧ c ≠ ascii "info") :
      Complaint l (ascii "invalid command given, [" ++ c ++ ascii "]")
  | up (t : Bytes) (hi : last (ascii "i") l [] ≠ []) (hc : last (ascii "cmd") l (ascii "swarm") = ascii "swarm" ∨ last (ascii "cmd") l (ascii "swarm") = ascii "info")
      (h : BadSize (last (ascii "u") l (ascii "-1B")) t) : Complaint l t
  | down (t : Bytes) (hi : last (ascii "i") l [] ≠ []) (hc : last (ascii "cmd") l (ascii "swarm") = ascii "swarm" ∨ last (ascii "cmd") l (ascii "swarm") = ascii "info")
      (hu : GoodSize (last (ascii "u") l (ascii "-1B"))) (h : BadSize (last (ascii "d") l (ascii "-1B")) t) : Complaint l t

end Verif.OptsText.Spec
