import Verif.Spec.Bencode
/-
Specification side of the property about the call stack: how deep lists and dictionaries are nested.
-/
set_option autoImplicit false

namespace Verif.Stack.Spec
open Verif.Bencode

/-- `Nested n v`: there are at most `n` lists and dictionaries around each other in `v`, itself included -/
inductive Nested : Nat → Value → Prop
  | str (n : Nat) (s : Bytes) : Nested n (.str s)
  | int64 (n : Nat) (i : Int) : Nested n (.int64 i)
  | intN (n : Nat) (i : Int) : Nested n (.intN i)
  | other (n : Nat) : Nested n .other
  | list (n : Nat) (vs : List Value) : (∀ v ∈ vs, Nested n v) → Nested (n + 1) (.list vs)
  | dict (n : Nat) (es : List (Bytes × Value)) : (∀ e ∈ es, Nested n e.2) → Nested (n + 1) (.dict es)

/-- the bytes that can open a list or a dictionary -/
def opens (b : Bytes) : Nat := (b.filter (fun c => c = 108 ∨ c = 100)).length

/-- `n + 1` lists around each other, with nothing in them -/
def brackets (n : Nat) : Bytes := List.replicate (n + 1) 108 ++ List.replicate (n + 1) 101

/-- the value written like that -/
def nest : Nat → Value
  | 0 => .list []
  | n + 1 => .list [nest n]

end Verif.Stack.Spec
