/-
A terminal, for C103: what is on the screen after some text was written.
-/
set_option autoImplicit false

namespace Verif.Screen

/-- the finished lines, the line of the cursor, and the column of the cursor -/
structure Screen where
  lines : List (List Char)
  line : List Char
  col : Nat
  deriving DecidableEq

/-- a character is written -/
def Screen.put (s : Screen) (c : Char) : Screen :=
  if c = '\r' then { s with col := 0 }
  else if c = '\n' then ⟨s.lines ++ [s.line], [], 0⟩
  else if c = '\x08' then { s with col := s.col - 1 }
  else { s with line := (s.line ++ List.replicate (s.col - s.line.length) ' ').take s.col ++ c :: s.line.drop (s.col + 1), col := s.col + 1 }

/-- what is on the screen after a text was written to an empty one -/
def shown (text : List Char) : Screen := text.foldl Screen.put ⟨[], [], 0⟩

/-- characters that take one cell -/
def Printable (text : List Char) : Prop := ∀ c ∈ text, c ≠ '\r' ∧ c ≠ '\n' ∧ c ≠ '\x08'

end Verif.Screen
