import Verif.Model.Bencode
/-
The info dictionary in the format this client writes (BEP 3 plus a `private` flag of 0).  Only the type `Value` is taken from
the model.
-/
set_option autoImplicit false

namespace Verif.Info
open Verif.Bencode

/-- single file -/
def singleInfo (name pieces : Bytes) (pieceLen length : Int) : List (Bytes × Value) :=
  [(ascii "name", .str name), (ascii "piece length", .int64 pieceLen), (ascii "pieces", .str pieces),
   (ascii "private", .int64 0), (ascii "length", .int64 length)]

/-- one file of several: length and path components -/
def fileInfo (f : Int × List Bytes) : Value :=
  .dict [(ascii "length", .int64 f.1), (ascii "path", .list (f.2.map Value.str))]

/-- several files -/
def multiInfo (name pieces : Bytes) (pieceLen : Int) (files : List (Int × List Bytes)) : List (Bytes × Value) :=
  [(ascii "name", .str name), (ascii "piece length", .int64 pieceLen), (ascii "pieces", .str pieces),
   (ascii "private", .int64 0), (ascii "files", .list (files.map fileInfo))]

/-! reading metadata -/

/-- the integer stored under a key -/
def intAt (d : List (Bytes × Value)) (k : Bytes) : Option Int :=
  match d.lookup k with
  | some (.int64 i) => some i
  | _ => none

/-- the string stored under a key -/
def strAt (d : List (Bytes × Value)) (k : Bytes) : Option Bytes :=
  match d.lookup k with
  | some (.str s) => some s
  | _ => none

/-- the list stored under a key -/
def listAt (d : List (Bytes × Value)) (k : Bytes) : Option (List Value) :=
  match d.lookup k with
  | some (.list vs) => some vs
  | _ => none

/-- the dictionary stored under a key -/
def dictAt (d : List (Bytes × Value)) (k : Bytes) : Option (List (Bytes × Value)) :=
  match d.lookup k with
  | some (.dict vs) => some vs
  | _ => none

/-- length and path components of a file described by a value, if it has the right form -/
def FileOf (v : Value) (f : Int × List Bytes) : Prop :=
  ∃ d, v = .dict d ∧ intAt d (ascii "length") = some f.1 ∧ listAt d (ascii "path") = some (f.2.map Value.str)

/-- a list of values describes files one by one, each with a path -/
inductive FilesOf : List Value → List Int → Prop
  | nil : FilesOf [] []
  | cons (v : Value) (vs : List Value) (f : Int × List Bytes) (ns : List Int) : FileOf v f → f.2 ≠ [] → FilesOf vs ns →
      FilesOf (v :: vs) (f.1 :: ns)

/-- the first entry that is not a file with a path is a file with an empty path -/
def EmptyPath (vs : List Value) : Prop :=
  ∃ pre v post ns n, vs = pre ++ v :: post ∧ FilesOf pre ns ∧ FileOf v (n, [])

/-- the file lengths recorded in an info dictionary: its `length`, or else those of its `files` -/
def LengthsOf (info : List (Bytes × Value)) (ns : List Int) : Prop :=
  (∃ n, intAt info (ascii "length") = some n ∧ ns = [n]) ∨
  (intAt info (ascii "length") = none ∧ ∃ vs, listAt info (ascii "files") = some vs ∧ FilesOf vs ns)

end Verif.Info
