import Verif.Model.PeerLoop
/-
Executions of the goroutines of one connection, counting how often `requestLoop` goes round without finding anything to ask for, and everything else.
-/
set_option autoImplicit false

namespace Verif.Rest
open Verif.PeerLoop

/-- `requestLoop` looks whether everything is there, or whether there is something to ask for, and goes on; nothing else changes -/
def Round (s s' : State) : Prop := s.req = .check ∧ s' = { s with req := .fill } ∨ s.req = .fill ∧ s' = { s with req := .check }

/-- an execution with `a` such steps and `b` others -/
inductive Run (heard : Bool) (s : State) : Nat → Nat → State → Prop
  | nil : Run heard s 0 0 s
  | round (a b : Nat) (t t' : State) : Run heard s a b t → Step heard t t' → Round t t' → Run heard s (a + 1) b t'
  | other (a b : Nat) (t t' : State) : Run heard s a b t → Step heard t t' → ¬ Round t t' → Run heard s a (b + 1) t'

end Verif.Rest
