import Verif.Model.Bencode
import Verif.Model.Path
import Verif.Spec.Dirs
/-
How much there is in what the client keeps: bytes of strings, and one for every number, string, list and dictionary.
-/
set_option autoImplicit false

namespace Verif.Memory
open Verif.Bencode

mutual
/-- what there is in a value: one for the value itself, one for every byte of a string, and what there is in the elements and entries -/
def size : Value → Nat
  | .str s => 1 + s.length
  | .int64 _ => 1
  | .intN _ => 1
  | .list vs => 1 + sizes vs
  | .dict es => 1 + sizese es
  | .other => 1
/-- the elements of a list -/
def sizes : List Value → Nat
  | [] => 0
  | v :: vs => size v + sizes vs
/-- the entries of a dictionary: each has its key, a string, and its value -/
def sizese : List (Bytes × Value) → Nat
  | [] => 0
  | (k, v) :: es => 1 + k.length + size v + sizese es
end

/-- all the bytes of some texts -/
def bytes (ps : List Bytes) : Nat := (ps.map List.length).sum

end Verif.Memory
