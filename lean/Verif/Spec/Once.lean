import Verif.Spec.Session
/-
Specification for C98: how many peers have announced a piece.
-/
set_option autoImplicit false

namespace Verif.OnceSpec

/-- the number of different things that have the property `P` -/
def Number {α : Type} (P : α → Prop) (n : Nat) : Prop := ∃ l : List α, l.Nodup ∧ l.length = n ∧ ∀ x, x ∈ l ↔ P x

/-- a number of this kind is unique -/
theorem number_unique {α : Type} {P : α → Prop} {n m : Nat} (h : Number P n) (h' : Number P m) : n = m := by
  obtain ⟨l, hl, rfl, hp⟩ := h
  obtain ⟨l', hl', rfl, hp'⟩ := h'
  have : l.Perm l' := (List.perm_ext_iff_of_nodup hl hl').mpr fun x => (hp x).trans (hp' x).symm
  exact this.length_eq

end Verif.OnceSpec
