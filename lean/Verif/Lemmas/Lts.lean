import Verif.Spec.Lts
/-
General facts about `Reach` and `Inevitable`.
-/
set_option autoImplicit false

namespace Verif.Lts
variable {S : Type} {Step : S → S → Prop} {P : S → Prop}

theorem Reach.single {s s' : S} (h : Step s s') : Reach Step s s' := .tail s s' .refl h

theorem Reach.trans {a b c : S} (h1 : Reach Step a b) (h2 : Reach Step b c) : Reach Step a c := by
  induction h2 with
  | refl => exact h1
  | tail s' s'' _ hs ih => exact .tail _ _ ih hs

theorem Reach.head {a b c : S} (h1 : Step a b) (h2 : Reach Step b c) : Reach Step a c := (Reach.single h1).trans h2

/-- what every step keeps is kept -/
theorem Reach.keep {Q : S → Prop} (hk : ∀ a b, Q a → Step a b → Q b) {a b : S} (h : Reach Step a b) (ha : Q a) : Q b := by
  induction h with
  | refl => exact ha
  | tail s' s'' _ hs ih => exact hk _ _ ih hs

/-- if something is inevitable it can be reached -/
theorem Inevitable.reach {s : S} (h : Inevitable Step P s) : ∃ s', Reach Step s s' ∧ P s' := by
  induction h with
  | now s h => exact ⟨s, .refl, h⟩
  | next s hex _ ih =>
    obtain ⟨s', hs⟩ := hex
    obtain ⟨s'', h1, h2⟩ := ih s' hs
    exact ⟨s'', .head hs h1, h2⟩

/-- something that can be avoided for ever is not inevitable -/
theorem not_inevitable (Q : S → Prop) (hq : ∀ s, Q s → ¬ P s ∧ (Stuck Step s ∨ ∃ s', Step s s' ∧ Q s')) {s : S} (hs : Q s) : ¬ Inevitable Step P s := by
  intro h
  induction h with
  | now s h => exact (hq s hs).1 h
  | next s hex _ ih =>
    rcases (hq s hs).2 with h | ⟨s', h1, h2⟩
    · obtain ⟨s', h'⟩ := hex
      exact h s' h'
    · exact ih s' h1 h2

/-- inevitable by way of something else -/
theorem Inevitable.bind {Q : S → Prop} {s : S} (h : Inevitable Step Q s) (hq : ∀ s', Q s' → Inevitable Step P s') : Inevitable Step P s := by
  induction h with
  | now s h => exact hq s h
  | next s hex _ ih => exact .next s hex ih

end Verif.Lts
