import Verif.Model.Go
/-
Specification of availability tracking: which peers have been registered for a piece.
-/
set_option autoImplicit false

namespace Verif.Avail

/-- for each piece the distinct peers (by key) registered for it -/
abbrev State := Nat → List Bytes

/-- elementary steps -/
inductive Step where
  | reg (who : Bytes) (piece : Nat)
  | unreg (who : Bytes)

/-- their effect -/
def Step.effect (a : State) : Step → State
  | .reg k i => fun j => if j = i ∧ k ∉ a i then a i ++ [k] else a j
  | .unreg k => fun j => (a j).filter fun x => x != k

/-- at no time a piece gets more than `m` peers -/
def AtMost (m : Nat) : State → List Step → Prop
  | _, [] => True
  | a, s :: ss => (∀ j, (s.effect a j).length ≤ m) ∧ AtMost m (s.effect a) ss

/-- no peers at all -/
def empty : State := fun _ => []

/-- what `NextPiece` should return: a piece we need and this peer has, with the fewest peers among those -/
def IsRarest (a : State) (size : Nat) (have_ : Nat → Bool) (who : Bytes) (i : Nat) : Prop :=
  i < size ∧ have_ i = false ∧ who ∈ a i ∧ ∀ j, j < size → have_ j = false → who ∈ a j → (a i).length ≤ (a j).length

/-- what happens to a peer (given by its handler) as far as pieces to be fetched are concerned: it is handed one, or it goes away -/
inductive Event where
  | handed (ptr piece : Nat)
  | gone (ptr : Nat)
  deriving DecidableEq

/-- the ledger of a peer: the pieces it was handed, oldest first, each with whether the peer has stayed since -/
def ledger (p : Nat) : List Event → List (Nat × Bool)
  | [] => []
  | .handed q i :: es => if q = p then (i, decide (Event.gone p ∉ es)) :: ledger p es else ledger p es
  | .gone _ :: es => ledger p es

end Verif.Avail
