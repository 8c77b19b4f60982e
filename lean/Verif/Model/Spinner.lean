import Verif.Model.Utils
/-
Model of `Spinner` (/repo/src/utils/utils.go:65-87), which the rest of the program does not call, as a transition system together with whoever sends on `done`.

Text is a list of characters here (what is written is its UTF-8 form); `%c` and `%v` write a character and a string as they are.  The time that `time.Sleep` takes is
not modelled: a step may come at any time.
-/
set_option autoImplicit false

namespace Verif.Spinner

/-- utils.go:67 -/
def symbols : List Char := ['⠏', '⠛', '⠹', '⢸', '⣰', '⣤', '⣆', '⡇']

/-- utils.go:68 -/
def dots : List Char := ['.', '.', '.']

/-- utils.go:70 -/
def backs : List Char := [' ', ' ', '\x08', '\x08']

/-- utils.go:81; `i` is the value after line 78, `dots[:i+1]` is line 79 -/
def frame (r : Char) (msg : List Char) (i : Nat) : List Char := '\r' :: r :: ' ' :: (msg ++ dots.take (i + 1) ++ backs)

/-- utils.go:75 -/
def last (msg : List Char) : List Char := '\r' :: '✓' :: ' ' :: (msg ++ ['\n'])

/-- where the goroutine is: in front of the `select`, with the value of `i`; in the loop over the symbols, with those that are left; or it has returned -/
inductive Pc where
  | top (i : Nat)
  | round (i : Nat) (rs : List Char)
  | returned
  deriving DecidableEq

/-- `ready`: there is something to be received from `done` (somebody sends, there is something in the buffer, or it is closed).  `out` is everything written so far. -/
structure State where
  pc : Pc
  ready : Bool
  out : List Char
  deriving DecidableEq

/-- one step of `Spinner`, or of the one who tells it to stop -/
inductive Step (msg : List Char) (s : State) : State → Prop
  /-- somebody sends on `done` or closes it -/
  | tell (h : s.ready = false) : Step msg s { s with ready := true }
  /-- utils.go:74-76 -/
  | stop (i : Nat) (hp : s.pc = .top i) (h : s.ready = true) : Step msg s { s with pc := .returned, out := s.out ++ last msg }
  /-- utils.go:77-80; `default` is taken only if nothing can be received -/
  | again (i : Nat) (hp : s.pc = .top i) (h : s.ready = false) : Step msg s { s with pc := .round ((i + 1) % 3) symbols }
  /-- utils.go:81-82 -/
  | draw (i : Nat) (r : Char) (rs : List Char) (hp : s.pc = .round i (r :: rs)) : Step msg s { s with pc := .round i rs, out := s.out ++ frame r msg i }
  /-- the end of the loop over the symbols -/
  | next (i : Nat) (hp : s.pc = .round i []) : Step msg s { s with pc := .top i }

/-- utils.go:69 -/
def init : State := ⟨.top 0, false, []⟩

end Verif.Spinner
