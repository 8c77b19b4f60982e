import Verif.Lemmas.LinksExec
/-
Where cleaned paths lead, with symbolic links.
-/
set_option autoImplicit false

namespace Verif.Links
open Verif.LinksSpec Verif.Dirs Verif.FS Verif.FileIO Verif.Path

/-! ### cleaned paths -/

/-- what `Clean` keeps, in reverse order: names, and in front of them `..` if the path is not rooted -/
inductive Kept (r : Bool) : List Bytes → Prop
  | nil : Kept r []
  | name (w : Bytes) (out : List Bytes) : Name w → Kept r out → Kept r (w :: out)
  | up (out : List Bytes) : r = false → (∀ w ∈ out, w = [46, 46]) → Kept r ([46, 46] :: out)

theorem kept_ups {r : Bool} (hr : r = false) : ∀ {out : List Bytes}, (∀ w ∈ out, w = [46, 46]) → Kept r out
  | [], _ => .nil
  | w :: out, h => by
    obtain rfl := h w (.head _)
    exact .up out hr fun w hw => h w (.tail _ hw)

theorem cleanLoop_cons (r : Bool) (w : Bytes) (ws out : List Bytes) : cleanLoop r (w :: ws) out =
    if w = [] ∨ w = [46] then cleanLoop r ws out
    else if w = [46, 46] then
      match out with
      | [] => if r then cleanLoop r ws [] else cleanLoop r ws [[46, 46]]
      | t :: out' => if t = [46, 46] then cleanLoop r ws ([46, 46] :: out) else cleanLoop r ws out'
    else cleanLoop r ws (w :: out) := by
  cases out <;> rfl

theorem cleanLoop_append (r : Bool) : ∀ (a b out : List Bytes), cleanLoop r (a ++ b) out = cleanLoop r b (cleanLoop r a out)
  | [], _, _ => rfl
  | w :: a, b, out => by
    rw [List.cons_append, cleanLoop_cons, cleanLoop_cons]
    split
    · exact cleanLoop_append r a b _
    · split
      · split
        · split <;> exact cleanLoop_append r a b _
        · split <;> exact cleanLoop_append r a b _
      · exact cleanLoop_append r a b _

theorem cleanLoop_kept (r : Bool) : ∀ (ws out : List Bytes), (∀ w ∈ ws, (47 : UInt8) ∉ w) → Kept r out → Kept r (cleanLoop r ws out)
  | [], _, _, h => h
  | w :: ws, out, hw, h => by
    have hw' : ∀ w ∈ ws, (47 : UInt8) ∉ w := fun x hx => hw x (.tail _ hx)
    rw [cleanLoop_cons]
    split
    · exact cleanLoop_kept r ws _ hw' h
    · rename_i h1
      split
      · cases h with
        | nil =>
          simp only
          cases r with
          | true => exact cleanLoop_kept _ ws _ hw' .nil
          | false => exact cleanLoop_kept _ ws _ hw' (.up [] rfl nofun)
        | name x out hx ho =>
          simp only
          rw [if_neg hx.2.2.1]
          exact cleanLoop_kept r ws _ hw' ho
        | up out hr ho =>
          simp only
          rw [if_pos trivial]
          exact cleanLoop_kept r ws _ hw' (.up _ hr (by
            intro w hw
            rcases List.mem_cons.mp hw with rfl | hw
            · rfl
            · exact ho w hw))
      · rename_i h2
        exact cleanLoop_kept r ws _ hw' (.name _ _ ⟨fun e => h1 (.inl e), fun e => h1 (.inr e), h2, hw w (.head _)⟩ h)

theorem cleanLoop_again {r : Bool} {out : List Bytes} (h : Kept r out) : cleanLoop r out.reverse [] = out := by
  induction out with
  | nil => rfl
  | cons w out ih =>
    rw [List.reverse_cons, cleanLoop_append]
    cases h with
    | name _ _ hw ho =>
      rw [ih ho, cleanLoop_cons, if_neg (fun e => e.elim hw.1 hw.2.1), if_neg hw.2.2.1]
      rfl
    | up _ hr ho =>
      rw [ih (kept_ups hr ho), cleanLoop_cons, if_neg (by decide), if_pos rfl]
      cases out with
      | nil => simp [hr, cleanLoop]
      | cons x out =>
        obtain rfl := ho x (.head _)
        simp [cleanLoop]

theorem cleanElems_kept (p : Bytes) : Kept (rooted p) (cleanElems p).reverse := by
  unfold cleanElems
  rw [List.reverse_reverse]
  exact cleanLoop_kept _ _ _ (splitSlash_noslash p) .nil

theorem cleanElems_noslash (p : Bytes) : ∀ w ∈ cleanElems p, (47 : UInt8) ∉ w ∧ w ≠ [] := by
  cases h : rooted p with
  | true => exact (cleanElems_spec p [] fun _ => rfl).2
  | false => exact (cleanElems_spec p [] fun e => rfl).2

theorem rooted_clean (p : Bytes) : rooted (Clean p) = rooted p := by
  unfold Clean
  cases h : rooted p with
  | true => rfl
  | false =>
    simp only [Bool.false_eq_true, if_false]
    split
    · rfl
    · rename_i hne
      obtain ⟨w, ws, e⟩ := List.exists_cons_of_ne_nil hne
      have hw := cleanElems_noslash p w (by rw [e]; exact .head _)
      have := joinSlash_head (ws := ws) ⟨hw.2, hw.1⟩
      rw [e]
      unfold rooted
      simpa using this

/-- the components of a cleaned path are those that have been kept, and perhaps one that is skipped -/
theorem split_clean (p : Bytes) : ∃ skip, splitSlash (Clean p) = skip ++ cleanElems p ∧ ∀ w ∈ skip, w = [] ∨ w = [46] := by
  have key : ∀ ws : List Bytes, (∀ w ∈ ws, (47 : UInt8) ∉ w ∧ w ≠ []) → ws ≠ [] → splitSlash (joinSlash ws) = ws := by
    intro ws h hne
    obtain ⟨c, cs, rfl⟩ := List.exists_cons_of_ne_nil hne
    exact Torrent.split_join c cs fun w hw => (h w hw).1
  unfold Clean
  cases h : rooted p with
  | true =>
    simp only [if_true]
    rw [splitSlash, if_pos rfl]
    by_cases hne : cleanElems p = []
    · rw [hne]
      exact ⟨[[], []], rfl, by simp⟩
    · rw [key _ (cleanElems_noslash p) hne]
      exact ⟨[[]], rfl, by simp⟩
  | false =>
    simp only [Bool.false_eq_true, if_false]
    split
    · rename_i hne
      rw [hne]
      exact ⟨[[46]], rfl, by simp⟩
    · rename_i hne
      rw [key _ (cleanElems_noslash p) hne]
      exact ⟨[], rfl, nofun⟩

theorem cleanLoop_skips (r : Bool) : ∀ (skip out : List Bytes), (∀ w ∈ skip, w = [] ∨ w = [46]) → cleanLoop r skip out = out
  | [], _, _ => rfl
  | w :: skip, out, h => by
    rw [cleanLoop_cons, if_pos (h w (.head _))]
    exact cleanLoop_skips r skip out fun x hx => h x (.tail _ hx)

/-- cleaning what is joined to a path: the elements of the path, followed by the steps -/
theorem cleanElems_join (a b : Bytes) (ha : a ≠ []) : rooted (a ++ 47 :: b) = rooted a ∧
    cleanElems (a ++ 47 :: b) = (cleanLoop (rooted a) (splitSlash b) (cleanElems a).reverse).reverse := by
  have hr : rooted (a ++ 47 :: b) = rooted a := by
    obtain ⟨c, cs, rfl⟩ := List.exists_cons_of_ne_nil ha
    rfl
  refine ⟨hr, ?_⟩
  unfold cleanElems
  rw [hr, splitSlash_append', cleanLoop_append, List.reverse_reverse]

theorem cleanElems_clean (p : Bytes) : cleanElems (Clean p) = cleanElems p := by
  obtain ⟨skip, e, hs⟩ := split_clean p
  unfold cleanElems
  rw [rooted_clean, e, cleanLoop_append, cleanLoop_skips _ _ _ hs]
  have := cleanLoop_again (cleanElems_kept p)
  rw [List.reverse_reverse] at this
  rw [this, List.reverse_reverse]
  rfl

/-- steps that stay below lead to names below -/
theorem cleanLoop_stays (r : Bool) (out : List Bytes) : ∀ (ws d : List Bytes), (∀ w ∈ ws, (47 : UInt8) ∉ w) → (∀ w ∈ d, Name w) → Stays d.length ws →
    ∃ d', cleanLoop r ws (d ++ out) = d' ++ out ∧ ∀ w ∈ d', Name w
  | [], d, _, hd, _ => ⟨d, rfl, hd⟩
  | w :: ws, d, hw, hd, h => by
    have hw' : ∀ w ∈ ws, (47 : UInt8) ∉ w := fun x hx => hw x (.tail _ hx)
    rw [Stays] at h
    rw [cleanLoop_cons]
    split
    · rename_i h1
      rw [if_pos (by simpa [ascii] using h1)] at h
      exact cleanLoop_stays r out ws d hw' hd h
    · rename_i h1
      rw [if_neg (by simpa [ascii] using h1)] at h
      split
      · rename_i h2
        rw [if_pos (by simpa [ascii] using h2)] at h
        cases d with
        | nil => exact absurd h.1 (by simp)
        | cons x d =>
          have hx := hd x (.head _)
          simp only [List.cons_append]
          rw [if_neg hx.2.2.1]
          exact cleanLoop_stays r out ws d hw' (fun y hy => hd y (.tail _ hy)) (by simpa using h.2)
      · rename_i h2
        rw [if_neg (by simpa [ascii] using h2)] at h
        exact cleanLoop_stays r out ws (w :: d) hw' (by
          intro y hy
          rcases List.mem_cons.mp hy with rfl | hy
          · exact ⟨fun e => h1 (.inl e), fun e => h1 (.inr e), h2, hw y (.head _)⟩
          · exact hd y hy) h

/-! ### where they lead -/

theorem follow_skips (t : Tree) (n : Nat) (cur : Place) : ∀ (skip rest : List Bytes), (∀ w ∈ skip, w = [] ∨ w = [46]) → follow t n cur (skip ++ rest) = follow t n cur rest
  | [], _, _ => rfl
  | w :: skip, rest, h => by
    rw [List.cons_append, follow_skip _ _ _ _ (h w (.head _))]
    exact follow_skips t n cur skip rest fun x hx => h x (.tail _ hx)

theorem start_clean (cwd : Place) (p : Bytes) : start cwd (Clean p) = start cwd p := by
  have := rooted_clean p
  unfold start
  unfold rooted at this
  by_cases h : p.head? = some 47 <;> simp_all

theorem real_clean (t : Tree) (cwd : Place) (p : Bytes) : real t cwd (Clean p) = follow t 40 (start cwd p) (cleanElems p) := by
  obtain ⟨skip, e, hs⟩ := split_clean p
  unfold real
  rw [components_eq, e, start_clean, follow_skips _ _ _ _ _ hs]

/-- names without links lead below -/
theorem follow_names {t : Tree} {n : Nat} {cur : Place} {todo : List Bytes} {q : Place} (h : follow t n cur todo = some q) (w : Place) (hb : Below w cur) (hn : ascii ".." ∉ todo)
    (hl : ∀ x l, Below w x → t x ≠ some (.link l)) : Below w q := by
  refine way_induct (t := t) (motive := fun n cur todo q => Below w cur → ascii ".." ∉ todo → Below w q) ?_ ?_ ?_ ?_ ?_ ?_ n cur todo q h hb hn
  · intro n cur hb _; exact hb
  · intro n cur x rest q _ _ ih hb hn; exact ih hb fun h => hn (.tail _ h)
  · intro n cur rest q _ _ _ hn; exact absurd (.head _) hn
  · intro n cur x rest q _ _ _ _ ih hb hn
    obtain ⟨r, rfl⟩ := hb
    exact ih ⟨r ++ [x], by rw [List.append_assoc]⟩ fun h => hn (.tail _ h)
  · intro n cur x rest q l _ _ hd _ ih hb hn
    obtain ⟨r, rfl⟩ := hb
    exact absurd hd (hl _ _ ⟨r ++ [x], by rw [List.append_assoc]⟩)
  · intro n cur x _ _ _ hb _
    obtain ⟨r, rfl⟩ := hb
    exact ⟨r ++ [x], by rw [List.append_assoc]⟩

/-- without links -/
theorem follow_walk {t : Tree} (hl : NoLinks t) {n : Nat} {cur : Place} {todo : List Bytes} {q : Place} (h : follow t n cur todo = some q) : q = walk cur todo := by
  refine way_induct (t := t) (motive := fun n cur todo q => q = walk cur todo) ?_ ?_ ?_ ?_ ?_ ?_ n cur todo q h
  · intro n cur; rfl
  · intro n cur x rest q hx _ ih
    rw [walk_cons, step, if_pos hx]; exact ih
  · intro n cur rest q _ ih
    rw [walk_cons, step, if_neg (by decide), if_pos rfl]; exact ih
  · intro n cur x rest q hx hu _ _ ih
    rw [walk_cons, step, if_neg hx, if_neg hu]; exact ih
  · intro n cur x rest q l _ _ hd _ _
    exact absurd hd (hl _ _)
  · intro n cur x hx hu _
    rw [walk_cons, step, if_neg hx, if_neg hu]; rfl

end Verif.Links
