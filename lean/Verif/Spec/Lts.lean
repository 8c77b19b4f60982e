import Verif.Model.Go
/-
Notions for transition systems used by the properties about goroutines: what can be reached, and what is inevitable.
-/
set_option autoImplicit false

namespace Verif.Lts

/-- `s'` can be reached from `s` -/
inductive Reach {S : Type} (Step : S → S → Prop) (s : S) : S → Prop
  | refl : Reach Step s s
  | tail (s' s'' : S) (h : Reach Step s s') (hs : Step s' s'') : Reach Step s s''

/-- Whatever the schedule, a state with `P` is reached after finitely many steps.  No schedule is assumed to be fair. -/
inductive Inevitable {S : Type} (Step : S → S → Prop) (P : S → Prop) : S → Prop
  | now (s : S) (h : P s) : Inevitable Step P s
  | next (s : S) (hex : ∃ s', Step s s') (hall : ∀ s', Step s s' → Inevitable Step P s') : Inevitable Step P s

/-- no step is possible -/
def Stuck {S : Type} (Step : S → S → Prop) (s : S) : Prop := ∀ s', ¬ Step s s'

end Verif.Lts
