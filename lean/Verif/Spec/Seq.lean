import Verif.Model.DS
/-
Specification for the linked list and the keyed set: sequences and sets of keys.
Only the node type is taken from the model.
-/
set_option autoImplicit false

namespace Verif.SeqSpec
open Verif.DS

/-- following `next` from `a` visits exactly these nodes and then ends -/
inductive Forward {α : Type} (h : List (Node α)) : Option Nat → List Nat → Prop
  | done : Forward h none []
  | step (x : Nat) (nd : Node α) (xs : List Nat) : h[x]? = some nd → Forward h nd.next xs → Forward h (some x) (x :: xs)

/-- following `prev` from `a` visits exactly these nodes and then ends -/
inductive Backward {α : Type} (h : List (Node α)) : Option Nat → List Nat → Prop
  | done : Backward h none []
  | step (x : Nat) (nd : Node α) (xs : List Nat) : h[x]? = some nd → Backward h nd.prev xs → Backward h (some x) (x :: xs)

/-- operations on a list -/
inductive LOp (α : Type) where
  | addData (d : α)
  | addNode (n : Nat)
  | remove (n : Nat)
  | clear

/-- the data of all nodes made so far, and the sequence of the nodes in the list -/
structure LSpec (α : Type) where
  made : List α
  seq : List Nat

/-- an operation may be used: only detached nodes are added and only members removed -/
def LOp.Allowed {α : Type} (s : LSpec α) : LOp α → Prop
  | .addData _ => True
  | .addNode n => n < s.made.length ∧ n ∉ s.seq
  | .remove n => n ∈ s.seq
  | .clear => True

/-- the effect of an operation -/
def LOp.effect {α : Type} (s : LSpec α) : LOp α → LSpec α
  | .addData d => ⟨s.made ++ [d], s.made.length :: s.seq⟩
  | .addNode n => ⟨s.made, n :: s.seq⟩
  | .remove n => ⟨s.made, s.seq.filter (· != n)⟩
  | .clear => ⟨s.made, []⟩

/-- every operation of the history may be used when its turn comes -/
def AllAllowed {α : Type} : LSpec α → List (LOp α) → Prop
  | _, [] => True
  | s, o :: os => o.Allowed s ∧ AllAllowed (o.effect s) os

/-- an operation on a set -/
inductive SOp (τ : Type) where
  | add (x : τ)
  | remove (x : τ)

/-- a key is a member: the last operation with that key was an addition -/
def SOp.member {τ : Type} (key : τ → Bytes) : List (SOp τ) → Bytes → Bool
  | [], _ => false
  | .add x :: earlier, k => if key x = k then true else SOp.member key earlier k
  | .remove x :: earlier, k => if key x = k then false else SOp.member key earlier k

end Verif.SeqSpec
