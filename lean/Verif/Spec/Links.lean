import Verif.Model.Links
/-
Notions for the statements about symbolic links.
-/
set_option autoImplicit false

namespace Verif.LinksSpec
open Verif.Links Verif.Dirs Verif.FS

/-- the place is `w` or below it -/
def Below (w q : Place) : Prop := ∃ r, q = w ++ r

/-- there are directories on the way to everything, and the current directory is one -/
structure Proper (cwd : Place) (t : Tree) : Prop where
  way : ∀ q r, r ≠ [] → t (q ++ r) ≠ none → t q = some .dir
  root : t [] = some .dir
  cwd : t cwd = some .dir

/-- `..` only in front -/
def Tidy (ws : List Bytes) : Prop := ∃ ups downs, ws = ups ++ downs ∧ (∀ w ∈ ups, w = [] ∨ w = ascii "." ∨ w = ascii "..") ∧ ascii ".." ∉ downs

/-- the links lead along tidy paths -/
def TidyLinks (t : Tree) : Prop := ∀ q l, t q = some (.link l) → Tidy (components l)

/-- there are no links -/
def NoLinks (t : Tree) : Prop := ∀ q l, t q ≠ some (.link l)

/-- the paths that a program uses -/
def Uses (ps : List Bytes) : Prog → Prop
  | .ret _ => True
  | .openRW p k => p ∈ ps ∧ ∀ b, Uses ps (k b)
  | .mkdirAll p k => p ∈ ps ∧ ∀ b, Uses ps (k b)
  | .openTrunc p k => p ∈ ps ∧ ∀ b, Uses ps (k b)
  | .size p k => p ∈ ps ∧ ∀ b, Uses ps (k b)
  | .truncate p _ k => p ∈ ps ∧ ∀ b, Uses ps (k b)
  | .write p _ _ k => p ∈ ps ∧ ∀ b, Uses ps (k b)

/-- the contents of the files at the given paths, for a program that sees nothing but paths -/
def seen (ps : List Bytes) (cwd : Place) (t : Tree) : State := fun p => if p ∈ ps then content t cwd p else none

/-- a tree, given by what is in it -/
def ofList (l : List (Place × Node)) : Tree := fun q => (l.find? fun x => x.1 == q).map Prod.snd

end Verif.LinksSpec
