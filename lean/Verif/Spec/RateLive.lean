import Verif.Spec.Rate
/-
What it means for calls of the write limiter to wait, to go on and to come to an end, for C90.
-/
set_option autoImplicit false

namespace Verif.RateSpec
open Verif.RateLimit

/-- goroutine `t` can go on -/
def CanGo (s : State) (t : Nat) : Prop := ∃ l s', Step s l s' ∧ s'.pcs t ≠ s.pcs t

/-- nobody who is in a call can go on before the next tick -/
def Settled (s : State) : Prop := ∀ t, s.pcs t ≠ .idle → ¬ CanGo s t

/-- a step inside of a call: no tick, and nobody makes a new call -/
def Work (s : State) (l : Label) (s' : State) : Prop := Step s l s' ∧ l ≠ .tick ∧ ∀ t, s.pcs t = .idle → s'.pcs t = .idle

/-- schedules without new calls in which a tick only happens when nobody can go on without it: goroutines are faster than the ticker, which
ticks once a second -/
inductive Drain : State → List Label → State → Prop
  | nil (s : State) : Drain s [] s
  | work (s s' s'' : State) (ls : List Label) (l : Label) : Drain s ls s' → Work s' l s'' → Drain s (ls ++ [l]) s''
  | tick (s s' s'' : State) (ls : List Label) : Drain s ls s' → Settled s' → Step s' .tick s'' → Drain s (ls ++ [.tick]) s''

/-- the number of ticks -/
def ticks : List Label → Nat
  | [] => 0
  | .tick :: ls => ticks ls + 1
  | _ :: ls => ticks ls

/-- the number of bytes of a call of `Write` that have not been handed to the writer yet -/
def todo : Pc → Option Nat
  | .start n | .direct n | .wantLock n | .spin n | .admit n | .unlock n | .addTotal n | .out n => some n
  | _ => none

end Verif.RateSpec
