import Verif.Spec.Query
import Verif.Spec.Bencode
/-
How the output of the program is read: lines, fields in brackets, hexadecimal numbers.
-/
set_option autoImplicit false

namespace Verif.ShowSpec
open Verif.Bencode.Spec Verif.Query

/-- the lines of a text -/
def lines (text : Bytes) : List Bytes := splitOn 10 text

/-- the bytes that a hexadecimal text stands for -/
def unhex : Bytes → Option Bytes
  | [] => some []
  | h :: l :: rest => match hexVal h, hexVal l, unhex rest with
    | some a, some b, some r => some ((a * 16 + b) :: r)
    | _, _, _ => none
  | _ => none

/-- text in one line -/
def OneLine (s : Bytes) : Prop := (10 : UInt8) ∉ s

instance (s : Bytes) : Decidable (OneLine s) := inferInstanceAs (Decidable ((10 : UInt8) ∉ s))

/-- what the text of a number looks like: on one line and without a colon -/
def Plain (s : Bytes) : Prop := OneLine s ∧ (58 : UInt8) ∉ s

/-- a line with a label and a value -/
def field (label : String) (value : Bytes) : Bytes := ascii label ++ ascii ": [" ++ value ++ ascii "]"

/-- what a reader of the output of the `info` command learns -/
structure Facts where
  name : Bytes
  announce : Bytes
  infohash : Bytes
  numPieces : Nat
  length : Int
  /-- paths in the torrent; none for a torrent of a single file -/
  files : Option (List Bytes)

/-- the text says this and nothing else, besides sizes that may be rounded -/
def Says (out : Bytes) (f : Facts) : Prop :=
  ∃ (hx size about : Bytes) (sizes : List Bytes), unhex hx = some f.infohash ∧ (∀ s ∈ sizes, (58 : UInt8) ∉ s) ∧
    lines out = [ascii "Torrent Info:", field "     Name" f.name, field " Announce" f.announce, field " Infohash" hx,
      field "   Pieces" (decNat f.numPieces ++ ascii " x " ++ size), field "   Length" about, field "   Length" (decInt f.length ++ ascii " b")] ++
      (match f.files with
       | none => []
       | some ps => ascii "Files:" :: List.zipWith (fun s p => s ++ ascii " : " ++ p) sizes ps ++ [[]]) ∧
    (∀ ps, f.files = some ps → sizes.length = ps.length)

end Verif.ShowSpec
