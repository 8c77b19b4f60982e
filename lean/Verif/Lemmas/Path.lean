import Verif.Lemmas.Torrent
import Verif.Spec.Dirs
/-
`filepath.Clean` and `filepath.Join` preserve where a path leads.
-/
set_option autoImplicit false

namespace Verif.Path
open Verif.Dirs Verif.Torrent

theorem components_eq (p : Bytes) : components p = splitSlash p := by
  induction p with
  | nil => rfl
  | cons c cs ih =>
    have : components (c :: cs) = if c = 47 then [] :: components cs else (c :: (components cs).headD []) :: (components cs).tail := rfl
    rw [this, ih, splitSlash]
    split
    · rfl
    · cases h : splitSlash cs with
      | nil => exact absurd h (splitSlash_ne_nil cs)
      | cons w ws => rfl

theorem splitSlash_append' (a b : Bytes) : splitSlash (a ++ 47 :: b) = splitSlash a ++ splitSlash b := by
  induction a with
  | nil => simp [splitSlash]
  | cons c cs ih =>
    rw [List.cons_append, splitSlash, splitSlash, ih]
    split
    · rfl
    · cases h : splitSlash cs with
      | nil => exact absurd h (splitSlash_ne_nil cs)
      | cons w ws => rfl

theorem splitSlash_noslash (s : Bytes) : ∀ w ∈ splitSlash s, (47 : UInt8) ∉ w := by
  induction s with
  | nil => simp [splitSlash]
  | cons c cs ih =>
    rw [splitSlash]
    split
    · intro w hw
      rcases List.mem_cons.mp hw with rfl | hw
      · simp
      · exact ih w hw
    · rename_i hc
      cases h : splitSlash cs with
      | nil => exact absurd h (splitSlash_ne_nil cs)
      | cons v ws =>
        rw [h] at ih
        intro w hw
        rcases List.mem_cons.mp hw with rfl | hw
        · have := ih v (by simp)
          simp [this, Ne.symm hc]
        · exact ih w (by simp [hw])

theorem walk_nil (dir : List Bytes) : walk dir [] = dir := rfl
theorem walk_cons (dir : List Bytes) (w : Bytes) (ws : List Bytes) : walk dir (w :: ws) = walk (step dir w) ws := rfl
theorem walk_append (dir ws vs : List Bytes) : walk dir (ws ++ vs) = walk (walk dir ws) vs := by
  simp [walk]

/-- a name, not one of the special components -/
def Name (w : Bytes) : Prop := w ≠ [] ∧ w ≠ [46] ∧ w ≠ [46, 46] ∧ (47 : UInt8) ∉ w

theorem step_name (dir : List Bytes) {w : Bytes} (h1 : ¬ (w = [] ∨ w = [46])) (h2 : w ≠ [46, 46]) : step dir w = dir ++ [w] := by
  unfold step
  rw [if_neg (by simpa [ascii] using h1), if_neg (by simpa [ascii] using h2)]

theorem step_dotdot (dir : List Bytes) : step dir [46, 46] = dir.dropLast := by
  unfold step
  rw [if_neg (by decide), if_pos (by decide)]

/-- the components kept by `Clean`: for a rooted path only names, otherwise also ".." in front of them -/
theorem cleanLoop_walk (r : Bool) (cwd : List Bytes) (hr : r = true → cwd = []) (ws out : List Bytes)
    (hw : ∀ w ∈ ws, (47 : UInt8) ∉ w)
    (ho : ∀ w ∈ out, (Name w) ∨ (r = false ∧ w = [46, 46])) :
    walk cwd (cleanLoop r ws out).reverse = walk (walk cwd out.reverse) ws ∧
      ∀ w ∈ cleanLoop r ws out, (Name w) ∨ (r = false ∧ w = [46, 46]) := by
  induction ws generalizing out with
  | nil => exact ⟨rfl, ho⟩
  | cons w ws ih =>
    have hw' : ∀ w ∈ ws, (47 : UInt8) ∉ w := fun x hx => hw x (by simp [hx])
    rw [cleanLoop.eq_def]
    simp only
    split
    · rename_i h
      rw [walk_cons]
      have : step (walk cwd out.reverse) w = walk cwd out.reverse := by
        unfold step; rw [if_pos (by simpa [ascii] using h)]
      rw [this]
      exact ih out hw' ho
    · rename_i h1
      split
      · rename_i h2
        subst h2
        rw [walk_cons, step_dotdot]
        cases out with
        | nil =>
          simp only [List.reverse_nil, walk_nil]
          cases r with
          | true =>
            rw [if_pos rfl, hr rfl]
            have := ih [] hw' (by simp)
            rw [hr rfl] at this
            simpa [walk_nil] using this
          | false =>
            rw [if_neg (by simp)]
            have := ih [[46, 46]] hw' (by simp)
            simpa [walk_cons, walk_nil, step_dotdot] using this
        | cons t out' =>
          simp only
          split
          · rename_i ht
            subst ht
            have h0 := ho [46, 46] (by simp)
            have hrf : r = false := by
              rcases h0 with h0 | h0
              · exact absurd rfl h0.2.2.1
              · exact h0.1
            have := ih ([46, 46] :: [46, 46] :: out') hw' (by
              intro x hx
              rcases List.mem_cons.mp hx with rfl | hx
              · exact .inr ⟨hrf, rfl⟩
              · exact ho x hx)
            rw [List.reverse_cons, walk_append] at this
            simpa [walk_cons, walk_nil, step_dotdot] using this
          · rename_i ht
            have ht' := ho t (by simp)
            have hn : Name t := by
              rcases ht' with h | h
              · exact h
              · exact absurd h.2 ht
            have := ih out' hw' (fun x hx => ho x (by simp [hx]))
            rw [List.reverse_cons, walk_append, walk_cons, walk_nil, step_name _ (by simp [hn.1, hn.2.1]) hn.2.2.1,
              List.dropLast_concat]
            exact this
      · rename_i h2
        have := ih (w :: out) hw' (by
          intro x hx
          rcases List.mem_cons.mp hx with rfl | hx
          · simp only [not_or] at h1
            exact .inl ⟨h1.1, h1.2, h2, hw x (by simp)⟩
          · exact ho x hx)
        rw [List.reverse_cons, walk_append, walk_cons, walk_nil] at this
        rw [walk_cons]
        exact this

theorem cleanElems_spec (p : Bytes) (cwd : List Bytes) (hr : rooted p = true → cwd = []) :
    walk cwd (cleanElems p) = walk cwd (splitSlash p) ∧ ∀ w ∈ cleanElems p, (47 : UInt8) ∉ w ∧ w ≠ [] := by
  obtain ⟨h1, h2⟩ := cleanLoop_walk (rooted p) cwd hr (splitSlash p) [] (splitSlash_noslash p) (by simp)
  refine ⟨h1, ?_⟩
  intro w hw
  rcases h2 w (List.mem_reverse.mp hw) with h | ⟨-, rfl⟩
  · exact ⟨h.2.2.2, h.1⟩
  · exact ⟨by decide, by decide⟩

theorem joinSlash_head {w : Bytes} {ws : List Bytes} (h : w ≠ [] ∧ (47 : UInt8) ∉ w) : (joinSlash (w :: ws)).head? ≠ some 47 := by
  obtain ⟨c, cs, rfl⟩ := List.exists_cons_of_ne_nil h.1
  have hc : c ≠ 47 := fun hc => h.2 (by simp [hc])
  cases ws with
  | nil => simpa [joinSlash] using hc
  | cons v ws => rw [joinSlash_cons]; simpa using hc

/-- `filepath.Clean` does not change where a path leads -/
theorem resolve_clean (cwd : List Bytes) (p : Bytes) : resolve cwd (Clean p) = resolve cwd p := by
  unfold resolve
  rw [components_eq, components_eq]
  unfold Clean
  cases hr : rooted p with
  | true =>
    have hp : p.head? = some 47 := by simpa [rooted] using hr
    obtain ⟨h1, h2⟩ := cleanElems_spec p [] (fun _ => rfl)
    rw [if_pos rfl, hp]
    simp only [List.head?_cons, if_true]
    rw [← h1, splitSlash, if_pos rfl, walk_cons]
    have hs : step [] [] = [] := by simp [step]
    rw [hs]
    cases he : cleanElems p with
    | nil => simp [joinSlash, splitSlash, walk, step]
    | cons w ws => rw [he] at h2; rw [split_join w ws (fun x hx => (h2 x hx).1)]
  | false =>
    have hp : p.head? ≠ some 47 := by simpa [rooted] using hr
    obtain ⟨h1, h2⟩ := cleanElems_spec p cwd (by simp [hr])
    simp only [Bool.false_eq_true, if_false]
    rw [if_neg hp]
    by_cases he : cleanElems p = []
    · rw [he] at h1
      simp only [he, if_true]
      rw [← h1]
      simp [splitSlash, walk, step, ascii]
    · simp only [he, if_false]
      obtain ⟨w, ws, he'⟩ := List.exists_cons_of_ne_nil he
      rw [he'] at h1 h2 ⊢
      rw [if_neg (joinSlash_head ⟨(h2 w (by simp)).2, (h2 w (by simp)).1⟩), split_join w ws (fun x hx => (h2 x hx).1)]
      exact h1

theorem clean_ne_nil (p : Bytes) : Clean p ≠ [] := by
  unfold Clean
  split
  · simp
  · rename_i hr
    split
    · simp
    · rename_i he
      obtain ⟨h1, h2⟩ := cleanElems_spec p [] (fun _ => rfl)
      obtain ⟨w, ws, he'⟩ := List.exists_cons_of_ne_nil he
      rw [he'] at h2 ⊢
      cases ws with
      | nil => exact (h2 w (by simp)).2
      | cons v ws => rw [joinSlash_cons]; simp

/-- `filepath.Join(a, b)` for a non-empty `a` leads to where `b` leads from the place of `a` -/
theorem resolve_join (cwd : List Bytes) (a b : Bytes) (ha : a ≠ []) :
    resolve cwd (Join a b) = walk (resolve cwd a) (components b) := by
  unfold Join
  rw [if_pos ha, resolve_clean]
  unfold resolve
  have hh : (a ++ 47 :: b).head? = a.head? := by
    obtain ⟨c, cs, rfl⟩ := List.exists_cons_of_ne_nil ha
    rfl
  rw [hh, components_eq, components_eq, components_eq, splitSlash_append', walk_append]

theorem join_ne_nil (a b : Bytes) (ha : a ≠ []) : Join a b ≠ [] := by
  unfold Join
  rw [if_pos ha]
  exact clean_ne_nil _

theorem stays_walk (dir ws : List Bytes) (h : Stays 0 ws) : ∃ below, walk dir ws = dir ++ below := by
  have gen : ∀ (ws below : List Bytes), Stays below.length ws → ∃ below', walk (dir ++ below) ws = dir ++ below' := by
    intro ws
    induction ws with
    | nil => intro below _; exact ⟨below, rfl⟩
    | cons w ws ih =>
      intro below h
      rw [Stays] at h
      rw [walk_cons]
      unfold step
      split at h
      · rename_i h1; rw [if_pos h1]; exact ih below h
      · rename_i h1
        rw [if_neg h1]
        split at h
        · rename_i h2
          rw [if_pos h2, List.dropLast_append_of_ne_nil (by intro h0; simp [h0] at h)]
          exact ih below.dropLast (by rw [List.length_dropLast]; exact h.2)
        · rename_i h2
          rw [if_neg h2, List.append_assoc]
          exact ih (below ++ [w]) (by simpa using h)
  simpa using gen ws [] h

end Verif.Path
