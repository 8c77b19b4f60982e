import Verif.Lemmas.LinksExec
/-
Executions with symbolic links are executions on paths.
-/
set_option autoImplicit false

namespace Verif.Links
open Verif.LinksSpec Verif.Dirs Verif.FS Verif.FileIO

/-- the contents of the files at the places where the paths lead in the end -/
def seenAt (ps : List Bytes) (T : Tree) (cwd : Place) (t : Tree) : State := fun p => if p ∈ ps then
    (match real T cwd p with
    | none => none
    | some q => match t q with
      | some (.file c) => some c
      | _ => none) else none

/-- files that are there are found from the beginning, not only when directories have been made -/
def Settled (ps : List Bytes) (T : Tree) (cwd : Place) (t : Tree) : Prop := ∀ p ∈ ps, ∀ q c, real T cwd p = some q → t q = some (.file c) → real t cwd p = some q

/-- different paths lead to different places -/
def Apart (ps : List Bytes) (cwd : Place) (T : Tree) : Prop := ∀ p ∈ ps, ∀ p' ∈ ps, ∀ q, real T cwd p = some q → real T cwd p' = some q → p = p'

theorem seen_eq {ps : List Bytes} {T : Tree} {cwd : Place} {t : Tree} (g : Grows t T) (hs : Settled ps T cwd t) : seenAt ps T cwd t = seen ps cwd t := by
  funext p
  unfold seenAt seen
  by_cases hp : p ∈ ps
  · rw [if_pos hp, if_pos hp]
    unfold content
    cases hr : real t cwd p with
    | some q =>
      simp only [real_mono g hr]
      cases t q with
      | none => rfl
      | some nd => cases nd <;> rfl
    | none =>
      cases hR : real T cwd p with
      | none => rfl
      | some q =>
        simp only
        cases ht : t q with
        | none => rfl
        | some nd => cases nd with
          | file c => rw [hs p hp q c hR ht] at hr; cases hr
          | _ => rfl
  · rw [if_neg hp, if_neg hp]

theorem content_some {t : Tree} {cwd : Place} {p c : Bytes} (h : content t cwd p = some c) : ∃ q, real t cwd p = some q ∧ t q = some (.file c) := by
  unfold content at h
  cases hr : real t cwd p with
  | none => rw [hr] at h; cases h
  | some q =>
    rw [hr] at h
    simp only at h
    cases ht : t q with
    | none => rw [ht] at h; cases h
    | some nd => cases nd with
      | file d => rw [ht] at h; cases h; exact ⟨q, rfl, ht⟩
      | _ => rw [ht] at h; cases h

theorem seenAt_file {ps : List Bytes} {T : Tree} {cwd : Place} {t : Tree} {p : Bytes} {q : Place} {c : Bytes} (hp : p ∈ ps) (hr : real T cwd p = some q) (hq : t q = some (.file c)) :
    seenAt ps T cwd t p = some c := by
  unfold seenAt
  rw [if_pos hp, hr]
  simp only [hq]

theorem seenAt_set {ps : List Bytes} {T : Tree} {cwd : Place} {t : Tree} (ha : Apart ps cwd T) {p : Bytes} {q : Place} {c : Bytes} (hp : p ∈ ps) (hr : real T cwd p = some q) :
    seenAt ps T cwd (t.set q (.file c)) = (seenAt ps T cwd t).set p c := by
  funext x
  unfold State.set
  by_cases hx : x = p
  · subst hx
    rw [if_pos rfl, seenAt_file hp hr (set_self ..)]
  · rw [if_neg hx]
    unfold seenAt
    by_cases hm : x ∈ ps
    · rw [if_pos hm, if_pos hm]
      cases hR : real T cwd x with
      | none => rfl
      | some w =>
        have : w ≠ q := by
          rintro rfl
          exact hx (ha x hm p hp _ hR hr)
        simp only [set_other _ _ this]
    · rw [if_neg hm, if_neg hm]

theorem settled_set {ps : List Bytes} {T : Tree} {cwd : Place} {t : Tree} (hs : Settled ps T cwd t) (ha : Apart ps cwd T) {p : Bytes} {q : Place} {c : Bytes} (hp : p ∈ ps)
    (hr : real t cwd p = some q) (hR : real T cwd p = some q) (g : Grows t (t.set q (.file c))) : Settled ps T cwd (t.set q (.file c)) := by
  intro x hx w d h1 h2
  by_cases e : w = q
  · subst e
    obtain rfl := ha x hx p hp _ h1 hR
    exact real_mono g hr
  · rw [set_other _ _ e] at h2
    exact real_mono g (hs x hx w d h1 h2)

theorem exec_flat {sp : Bool} {cwd : Place} {prog : Prog} {t T : Tree} {o : Outcome} (h : LinkExec sp cwd prog t o T) (hp : Proper cwd t) {ps : List Bytes} (hu : Uses ps prog)
    (ha : Apart ps cwd T) (hs : Settled ps T cwd t) : Exec sp prog (seenAt ps T cwd t) o (seenAt ps T cwd T) := by
  induction h with
  | ret r t => exact .ret _ _
  | crash p t => exact .crash _ _
  | open_ok path k t T o c hc hx ih =>
    obtain ⟨q, h1, h2⟩ := content_some hc
    exact .open_ok _ _ _ _ _ c (seenAt_file hu.1 (real_mono (exec_grows hx hp).1 h1) h2) (ih hp (hu.2 _) ha hs)
  | open_fail path k t T o hc hx ih =>
    refine .open_fail _ _ _ _ _ ?_ (ih hp (hu.2 _) ha hs)
    rcases hc with hc | hc
    · rw [seen_eq (exec_grows hx hp).1 hs]
      unfold seen
      split
      · exact .inl hc
      · exact .inl rfl
    · exact .inr hc
  | mkdir path k t t1 T o b hm hx ih =>
    obtain ⟨g, hp', hch⟩ := mkdirs_grows hm hp
    have hsame : seenAt ps T cwd t1 = seenAt ps T cwd t := by
      funext x
      unfold seenAt
      split
      · cases real T cwd x with
        | none => rfl
        | some q =>
          simp only
          rcases hch q with e | ⟨e1, e2⟩
          · rw [e]
          · rw [e1, e2]
      · rfl
    have hs' : Settled ps T cwd t1 := by
      intro x hx w d h1 h2
      rcases hch w with e | ⟨e1, e2⟩
      · rw [e] at h2; exact real_mono g (hs x hx w d h1 h2)
      · rw [e2] at h2; cases h2
    have := ih hp' (hu.2 _) ha hs'
    rw [hsame] at this
    exact .mkdir _ _ _ _ _ _ this
  | trunc_ok path k t T o q hr hq hx ih =>
    obtain ⟨g, hp'⟩ := file_place (c := []) hp hr hq
    have hR := real_mono (exec_grows hx hp').1 (real_mono g hr)
    have := ih hp' (hu.2 _) ha (settled_set hs ha hu.1 hr hR g)
    rw [seenAt_set ha hu.1 hR] at this
    exact .trunc_ok _ _ _ _ _ this
  | trunc_fail _ _ _ _ _ _ ih => exact .trunc_fail _ _ _ _ _ (ih hp (hu.2 _) ha hs)
  | size_ok path k t T o c hc hx ih =>
    obtain ⟨q, h1, h2⟩ := content_some hc
    exact .size_ok _ _ _ _ _ c (seenAt_file hu.1 (real_mono (exec_grows hx hp).1 h1) h2) (ih hp (hu.2 _) ha hs)
  | size_fail _ _ _ _ _ _ ih => exact .size_fail _ _ _ _ _ (ih hp (hu.2 _) ha hs)
  | truncate_ok path n k t T o q c hr hq hx ih =>
    obtain ⟨g, hp'⟩ := file_place (c := c.take n) hp hr (.inr ⟨c, hq⟩)
    have hR := real_mono (exec_grows hx hp').1 (real_mono g hr)
    have := ih hp' (hu.2 _) ha (settled_set hs ha hu.1 hr hR g)
    rw [seenAt_set ha hu.1 hR] at this
    exact .truncate_ok _ _ _ _ _ _ c (seenAt_file hu.1 hR hq) this
  | truncate_fail _ _ _ _ _ _ _ ih => exact .truncate_fail _ _ _ _ _ _ (ih hp (hu.2 _) ha hs)
  | write_ok path pos data k t T o q c hr hq hx ih =>
    obtain ⟨g, hp'⟩ := file_place (c := writeAt c pos data) hp hr (.inr ⟨c, hq⟩)
    have hR := real_mono (exec_grows hx hp').1 (real_mono g hr)
    have := ih hp' (hu.2 _) ha (settled_set hs ha hu.1 hr hR g)
    rw [seenAt_set ha hu.1 hR] at this
    exact .write_ok _ _ _ _ _ _ _ c (seenAt_file hu.1 hR hq) this
  | write_fail path pos data k t T o q c j hr hq hx ih =>
    obtain ⟨g, hp'⟩ := file_place (c := writeAt c pos (data.take j)) hp hr (.inr ⟨c, hq⟩)
    have hR := real_mono (exec_grows hx hp').1 (real_mono g hr)
    have := ih hp' (hu.2 _) ha (settled_set hs ha hu.1 hr hR g)
    rw [seenAt_set ha hu.1 hR] at this
    exact .write_fail _ _ _ _ _ _ _ c j (seenAt_file hu.1 hR hq) this
  | write_crash path pos data k t q c j hr hq =>
    obtain ⟨g, hp'⟩ := file_place (c := writeAt c pos (data.take j)) hp hr (.inr ⟨c, hq⟩)
    have hR := real_mono g hr
    rw [seenAt_set ha hu.1 hR]
    exact .write_crash _ _ _ _ _ c j (seenAt_file hu.1 hR hq)

/-! ### files are found from the beginning -/

theorem tidy_tail {x : Bytes} {rest : List Bytes} (h : Tidy (x :: rest)) : Tidy rest := by
  obtain ⟨ups, downs, e, hu, hd⟩ := h
  cases ups with
  | nil =>
    rw [List.nil_append] at e
    rw [← e] at hd
    exact ⟨[], rest, rfl, nofun, fun hm => hd (.tail _ hm)⟩
  | cons y ups =>
    obtain ⟨rfl, e'⟩ := List.cons.inj e
    exact ⟨ups, downs, e', fun w hw => hu w (.tail _ hw), hd⟩

theorem tidy_name {x : Bytes} {rest : List Bytes} (h : Tidy (x :: rest)) (h1 : ¬ (x = [] ∨ x = ascii ".")) (h2 : x ≠ ascii "..") : ascii ".." ∉ rest := by
  obtain ⟨ups, downs, e, hu, hd⟩ := h
  cases ups with
  | nil =>
    rw [List.nil_append] at e
    rw [← e] at hd
    exact fun hm => hd (.tail _ hm)
  | cons y ups =>
    obtain ⟨rfl, e⟩ := List.cons.inj e
    rcases hu x (.head _) with h | h | h
    · exact absurd (.inl h) h1
    · exact absurd (.inr h) h1
    · exact absurd h h2

theorem tidy_append {a b : List Bytes} (h : Tidy a) (hb : ascii ".." ∉ b) : Tidy (a ++ b) := by
  obtain ⟨ups, downs, rfl, hu, hd⟩ := h
  exact ⟨ups, downs ++ b, List.append_assoc .., hu, fun hm => (List.mem_append.mp hm).elim hd hb⟩

/-- below a place where there was nothing there was nothing -/
theorem follow_new {cwd : Place} {t T : Tree} (hp : Proper cwd t) (g : Grows t T) {n : Nat} {cur : Place} {todo : List Bytes} {q : Place} (h : follow T n cur todo = some q)
    (hc : t cur = none) (hn : ascii ".." ∉ todo) : t q = none := by
  have none_below : ∀ (cur : Place) (x : Bytes), t cur = none → t (cur ++ [x]) = none := by
    intro cur x hc
    apply Classical.byContradiction
    intro e
    rw [hp.way cur [x] nofun e] at hc
    cases hc
  refine way_induct (t := T) (motive := fun n cur todo q => t cur = none → ascii ".." ∉ todo → t q = none) ?_ ?_ ?_ ?_ ?_ ?_ n cur todo q h hc hn
  · intro n cur hc _; exact hc
  · intro n cur x rest q _ _ ih hc hn; exact ih hc fun h => hn (.tail _ h)
  · intro n cur rest q _ _ _ hn; exact absurd (.head _) hn
  · intro n cur x rest q _ _ _ _ ih hc hn; exact ih (none_below _ _ hc) fun h => hn (.tail _ h)
  · intro n cur x rest q l _ _ hd _ _ hc _
    have := g.new _ _ hd
    rw [none_below _ _ hc] at this
    cases this
  · intro n cur x _ _ _ hc _; exact none_below _ _ hc

theorem follow_settled {cwd : Place} {t T : Tree} (hp : Proper cwd t) (g : Grows t T) (hl : TidyLinks t) {n : Nat} {cur : Place} {todo : List Bytes} {q : Place} {c : Bytes}
    (h : follow T n cur todo = some q) (hq : t q = some (.file c)) (hc : t cur = some .dir) (ht : Tidy todo) : follow t n cur todo = some q := by
  refine way_induct (t := T) (motive := fun n cur todo q => t q = some (.file c) → t cur = some .dir → Tidy todo → follow t n cur todo = some q) ?_ ?_ ?_ ?_ ?_ ?_ n cur todo q h hq hc ht
  · intro n cur _ _ _; exact follow_nil ..
  · intro n cur x rest q hx _ ih hq hc ht; rw [follow_skip _ _ _ _ hx]; exact ih hq hc (tidy_tail ht)
  · intro n cur rest q _ ih hq hc ht; rw [follow_up]; exact ih hq (parent_dir hp hc) (tidy_tail ht)
  · intro n cur x rest q hx hu hd hf ih hq hc ht
    cases e : t (cur ++ [x]) with
    | none => rw [follow_new hp g hf e (tidy_name ht hx hu)] at hq; cases hq
    | some nd => cases nd with
      | dir => rw [follow_dir _ _ hx hu e]; exact ih hq e (tidy_tail ht)
      | file d =>
        obtain ⟨d', e'⟩ := g.file _ _ e
        rw [hd] at e'; cases e'
      | link l =>
        have := g.link _ _ e
        rw [hd] at this; cases this
  · intro n cur x rest q l hx hu hd hf ih hq hc ht
    have e := g.new _ _ hd
    rw [follow_link _ _ hx hu e]
    refine ih hq ?_ (tidy_append (hl _ _ e) (tidy_name ht hx hu))
    split
    · exact hp.root
    · exact hc
  · intro n cur x hx hu hd hq hc ht
    rw [follow_end _ _ hx hu (.inr ⟨c, hq⟩), if_pos rfl]

end Verif.Links
