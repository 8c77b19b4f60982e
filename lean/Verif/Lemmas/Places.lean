import Verif.Lemmas.Path
/-
Cleaned paths below a common directory.
-/
set_option autoImplicit false

namespace Verif.Path
open Verif.Dirs

/-- steps that stay below the start do not depend on the start -/
theorem walk_stays_gen (dir : List Bytes) (ws : List Bytes) : ∀ below : List Bytes, Stays below.length ws →
    walk (dir ++ below) ws = dir ++ walk below ws := by
  induction ws with
  | nil => intro below _; rfl
  | cons w ws ih =>
    intro below h
    rw [Stays] at h
    rw [walk_cons, walk_cons]
    unfold step
    split at h
    · rename_i h1; rw [if_pos h1, if_pos h1]; exact ih below h
    · rename_i h1
      rw [if_neg h1, if_neg h1]
      split at h
      · rename_i h2
        rw [if_pos h2, if_pos h2]
        have hne : below ≠ [] := by
          rintro rfl
          exact absurd h.1 (by simp)
        rw [List.dropLast_append_of_ne_nil hne]
        exact ih _ (by rw [List.length_dropLast]; exact h.2)
      · rename_i h2
        rw [if_neg h2, if_neg h2, List.append_assoc]
        exact ih _ (by rw [List.length_append]; exact h)

theorem walk_stays (dir ws : List Bytes) (h : Stays 0 ws) : walk dir ws = dir ++ walk [] ws := by
  have := walk_stays_gen dir ws [] h
  rwa [List.append_nil] at this

theorem cleanLoop_append (r : Bool) (a b out : List Bytes) : cleanLoop r (a ++ b) out = cleanLoop r b (cleanLoop r a out) := by
  induction a generalizing out with
  | nil => rfl
  | cons w ws ih =>
    rw [List.cons_append, cleanLoop.eq_def, cleanLoop.eq_def r (w :: ws)]
    simp only
    split
    · exact ih out
    · split
      · split
        · split <;> exact ih _
        · split <;> exact ih _
      · exact ih _

/-- the loop of `Clean` over steps that stay below the start -/
theorem cleanLoop_stays (r : Bool) (out : List Bytes) (ws : List Bytes) : ∀ cur : List Bytes, (∀ w ∈ cur, w ≠ [46, 46]) → Stays cur.length ws →
    cleanLoop r ws (cur ++ out) = (walk cur.reverse ws).reverse ++ out := by
  induction ws with
  | nil => intro cur _ _; simp [cleanLoop, walk]
  | cons w ws ih =>
    intro cur hc h
    rw [Stays] at h
    rw [cleanLoop.eq_def, walk_cons]
    unfold step
    simp only
    have e1 : ascii "." = [46] := by decide
    have e2 : ascii ".." = [46, 46] := by decide
    rw [e1, e2] at h ⊢
    split at h
    · rename_i h1; rw [if_pos h1, if_pos h1]; exact ih cur hc h
    · rename_i h1
      rw [if_neg h1, if_neg h1]
      split at h
      · rename_i h2
        rw [if_pos h2, if_pos h2]
        cases cur with
        | nil => exact absurd h.1 (by simp)
        | cons t cur =>
          simp only [List.cons_append]
          rw [if_neg (hc t (by simp)), List.reverse_cons, List.dropLast_concat]
          exact ih cur (fun x hx => hc x (by simp [hx])) (by simpa using h.2)
      · rename_i h2
        rw [if_neg h2, if_neg h2, ← List.reverse_cons, ← List.cons_append]
        exact ih (w :: cur) (by
          intro x hx
          rcases List.mem_cons.mp hx with rfl | hx
          · exact h2
          · exact hc x hx) (by simpa using h)

/-- two paths joined to the same directory are the same text if they lead to the same place below it -/
theorem join_same (a b c : Bytes) (ha : a ≠ []) (hb : Stays 0 (components b)) (hc : Stays 0 (components c))
    (h : walk [] (components b) = walk [] (components c)) : Join a b = Join a c := by
  unfold Join
  rw [if_pos ha, if_pos ha]
  have hr : ∀ x : Bytes, rooted (a ++ 47 :: x) = rooted a := by
    intro x
    obtain ⟨y, ys, rfl⟩ := List.exists_cons_of_ne_nil ha
    rfl
  have he : ∀ x : Bytes, Stays 0 (components x) →
      cleanElems (a ++ 47 :: x) = (cleanLoop (rooted a) (splitSlash a) []).reverse ++ walk [] (components x) := by
    intro x hx
    unfold cleanElems
    rw [hr, splitSlash_append', cleanLoop_append]
    have := cleanLoop_stays (rooted a) (cleanLoop (rooted a) (splitSlash a) []) (splitSlash x) [] (by simp)
      (by rw [components_eq] at hx; exact hx)
    rw [List.nil_append] at this
    rw [this, List.reverse_append, List.reverse_reverse, components_eq]
    rfl
  unfold Clean
  rw [hr, hr, he b hb, he c hc, h]

end Verif.Path
