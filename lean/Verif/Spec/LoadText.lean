import Verif.Model.Bencode
import Verif.Spec.Size
/-
What the error for a torrent file that is refused should say (C105): which key of which dictionary is missing or has a value of another type.
-/
set_option autoImplicit false

namespace Verif.LoadText
open Verif.Bencode

/-- the types of the values that a torrent file must have -/
inductive Kind where
  | str
  | int
  | list
  | dict
  deriving DecidableEq

/-- a value of this type -/
inductive Is : Kind → Value → Prop where
  | str (s) : Is .str (.str s)
  | int (i) : Is .int (.int64 i)
  | list (vs) : Is .list (.list vs)
  | dict (es) : Is .dict (.dict es)

/-- what the message calls the type that is asked for -/
def Kind.asked : Kind → Bytes
  | .str => ascii "string"
  | .int => ascii "int64"
  | .list => ascii "list"
  | .dict => ascii "dict"

/-- what the message calls the type that is found -/
def Kind.found : Kind → Bytes
  | .str => ascii "string"
  | .int => ascii "int64"
  | .list => ascii "bencode.List"
  | .dict => ascii "bencode.Dict"

/-- the dictionary has this value for the key -/
def Has (d : Dict) (key : Bytes) (v : Value) : Prop := d.lookup key = some v

/-- the dictionary has no value for the key -/
def Lacks (d : Dict) (key : Bytes) : Prop := ∀ v, ¬ Has d key v

/-- the file entries of a torrent: the dictionaries in the list `files` of `info`, unless `info` has a number `length` -/
inductive FileEntry (top : Dict) : Value → Prop where
  | mk (info fs v) : Has top (ascii "info") (.dict info) → (∀ n, ¬ Has info (ascii "length") (.int64 n)) → Has info (ascii "files") (.list fs) → v ∈ fs →
      FileEntry top v

/-- what a torrent file must have: the dictionary, the key, the type of the value -/
inductive Needs (top : Dict) : Dict → Bytes → Kind → Prop where
  | announce : Needs top top (ascii "announce") .str
  | info : Needs top top (ascii "info") .dict
  | name (info) : Has top (ascii "info") (.dict info) → Needs top info (ascii "name") .str
  | pieceLen (info) : Has top (ascii "info") (.dict info) → Needs top info (ascii "piece length") .int
  | pieces (info) : Has top (ascii "info") (.dict info) → Needs top info (ascii "pieces") .str
  | fileLen (f) : FileEntry top (.dict f) → Needs top f (ascii "length") .int
  | filePath (f) : FileEntry top (.dict f) → Needs top f (ascii "path") .list

/-- the message about a missing key -/
def missingText (addr key : Bytes) : Bytes := ascii "missing key [" ++ key ++ ascii "] in bencode dictionary [" ++ addr ++ ascii "]"

/-- the message about a value of another type -/
def typeText (addr key : Bytes) (want got : Kind) : Bytes :=
  ascii "bad type for key [" ++ key ++ ascii "] in dict [" ++ addr ++ ascii "]\nrequest [" ++ want.asked ++ ascii "]\n    got [" ++ got.found ++ ascii "]"

/-! ### formats -/

/-- a number in a format: digits, the first of which is not 0; all but the last digit are at most a million -/
def Number (ds : Bytes) : Prop := (∀ d ∈ ds, 48 ≤ d ∧ d ≤ 57) ∧ ds.head? ≠ some 48 ∧ Size.decVal ds.dropLast ≤ 1000000

/-- the width in a directive, and what is written for it if there are no arguments -/
inductive Width : Bytes → Bytes → Prop where
  | number (ds) : Number ds → Width ds []
  | star : Width (ascii "*") (ascii "%!(BADWIDTH)")

/-- the precision -/
inductive Precision : Bytes → Bytes → Prop where
  | none : Precision [] []
  | number (zs ds) : (∀ z ∈ zs, z = 48) → Number ds → Precision (ascii "." ++ zs ++ ds) []
  | star : Precision (ascii ".*") (ascii "%!(BADPREC)")

/-- what stands in front of the verb: flags, width and precision -/
inductive Head : Bytes → Bytes → Prop where
  | mk (fs w wo p po) : (∀ f ∈ fs, f ∈ ascii "#0+- ") → Width w wo → Precision p po → Head (fs ++ w ++ p) (wo ++ po)

/-- an ASCII character that can only be the verb -/
def Verb (c : UInt8) : Prop := c < 128 ∧ ¬ (48 ≤ c ∧ c ≤ 57) ∧ c ∉ ascii "#+- *.[%"

/-- the bytes of a character in UTF-8 -/
def utf8 (v : Nat) : Bytes :=
  if v < 0x80 then [UInt8.ofNat v]
  else if v < 0x800 then [UInt8.ofNat (0xC0 + v / 64), UInt8.ofNat (0x80 + v % 64)]
  else if v < 0x10000 then [UInt8.ofNat (0xE0 + v / 4096), UInt8.ofNat (0x80 + v / 64 % 64), UInt8.ofNat (0x80 + v % 64)]
  else [UInt8.ofNat (0xF0 + v / 262144), UInt8.ofNat (0x80 + v / 4096 % 64), UInt8.ofNat (0x80 + v / 64 % 64), UInt8.ofNat (0x80 + v % 64)]

/-- the numbers of characters -/
def Scalar (v : Nat) : Prop := v < 0xD800 ∨ (0xDFFF < v ∧ v < 0x110000)

/-- what stands between the brackets of an index that can be read: a number -/
def Index (k : Bytes) : Prop := k ≠ [] ∧ (∀ d ∈ k, 48 ≤ d ∧ d ≤ 57) ∧ Size.decVal k.dropLast ≤ 1000000

/-- what is written for a format without arguments (of the directives with an index in brackets, only those without width and precision) -/
inductive Printed : Bytes → Bytes → Prop where
  | nil : Printed [] []
  | char (c r o) : c ≠ 37 → Printed r o → Printed (c :: r) (c :: o)
  | percent (h ho r o) : Head h ho → Printed r o → Printed (ascii "%" ++ h ++ ascii "%" ++ r) (ho ++ ascii "%" ++ o)
  | verb (h ho c r o) : Head h ho → Verb c → Printed r o → Printed (ascii "%" ++ h ++ [c] ++ r) (ho ++ ascii "%!" ++ [c] ++ ascii "(MISSING)" ++ o)
  /-- a verb that is not an ASCII character -/
  | rune (h ho v r o) : Head h ho → Scalar v → 128 ≤ v → Printed r o → Printed (ascii "%" ++ h ++ utf8 v ++ r) (ho ++ ascii "%!" ++ utf8 v ++ ascii "(MISSING)" ++ o)
  /-- a byte that does not begin a character becomes U+FFFD -/
  | notRune (h ho a r o) : Head h ho → 128 ≤ a → (∀ v, Scalar v → ¬ utf8 v <+: a :: r) → Printed r o →
      Printed (ascii "%" ++ h ++ [a] ++ r) (ho ++ ascii "%!" ++ utf8 0xFFFD ++ ascii "(MISSING)" ++ o)
  | noVerb (h ho) : Head h ho → Printed (ascii "%" ++ h) (ho ++ ascii "%!(NOVERB)")
  /-- a width that is too large: the rest of the format is lost -/
  | tooWide (fs ds d r) : (∀ f ∈ fs, f ∈ ascii "#0+- ") → (∀ d ∈ ds, 48 ≤ d ∧ d ≤ 57) → ds.head? ≠ some 48 → 1000000 < Size.decVal ds → 48 ≤ d → d ≤ 57 →
      Printed (ascii "%" ++ fs ++ ds ++ [d] ++ r) (ascii "%!(NOVERB)")
  /-- an index -/
  | index (fs k c r o) : (∀ f ∈ fs, f ∈ ascii "#0+- ") → 93 ∉ k → Verb c → Printed r o →
      Printed (ascii "%" ++ fs ++ ascii "[" ++ k ++ ascii "]" ++ [c] ++ r) (ascii "%!" ++ [c] ++ ascii "(BADINDEX)" ++ o)
  /-- behind an index that can be read, a bracket is the verb -/
  | bracket (fs k r o) : (∀ f ∈ fs, f ∈ ascii "#0+- ") → Index k → Printed r o →
      Printed (ascii "%" ++ fs ++ ascii "[" ++ k ++ ascii "][" ++ r) (ascii "%![(BADINDEX)" ++ o)
  /-- behind one that cannot be read there may be another one -/
  | indices (fs k k' c r o) : (∀ f ∈ fs, f ∈ ascii "#0+- ") → 93 ∉ k → ¬ Index k → 93 ∉ k' → Verb c → Printed r o →
      Printed (ascii "%" ++ fs ++ ascii "[" ++ k ++ ascii "][" ++ k' ++ ascii "]" ++ [c] ++ r) (ascii "%!" ++ [c] ++ ascii "(BADINDEX)" ++ o)
  /-- a bracket that is not closed is skipped -/
  | unclosed (fs c r o) : (∀ f ∈ fs, f ∈ ascii "#0+- ") → 93 ∉ r → Verb c → c ≠ 93 → Printed r o →
      Printed (ascii "%" ++ fs ++ ascii "[" ++ [c] ++ r) (ascii "%!" ++ [c] ++ ascii "(BADINDEX)" ++ o)

end Verif.LoadText
