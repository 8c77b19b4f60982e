import Verif.Spec.Links
import Verif.Model.FileIO
/-
Lemmas about symbolic links.
-/
set_option autoImplicit false

namespace Verif.Links
open Verif.LinksSpec Verif.Dirs Verif.FS Verif.FileIO

/-- what an execution does to a tree: nothing is deleted, links stay, directories stay, files stay files, nothing becomes a link -/
structure Grows (t t' : Tree) : Prop where
  dir : ∀ q, t q = some .dir → t' q = some .dir
  link : ∀ q l, t q = some (.link l) → t' q = some (.link l)
  file : ∀ q c, t q = some (.file c) → ∃ c', t' q = some (.file c')
  new : ∀ q l, t' q = some (.link l) → t q = some (.link l)

theorem Grows.refl (t : Tree) : Grows t t := ⟨fun _ h => h, fun _ _ h => h, fun _ c h => ⟨c, h⟩, fun _ _ h => h⟩

theorem Grows.trans {a b c : Tree} (h : Grows a b) (h' : Grows b c) : Grows a c :=
  ⟨fun q e => h'.dir q (h.dir q e), fun q l e => h'.link q l (h.link q l e),
    fun q x e => by obtain ⟨y, e'⟩ := h.file q x e; exact h'.file q y e', fun q l e => h.new q l (h'.new q l e)⟩

theorem set_self (t : Tree) (q : Place) (n : Node) : t.set q n q = some n := if_pos rfl
theorem set_other (t : Tree) {q x : Place} (n : Node) (h : x ≠ q) : t.set q n x = t x := if_neg h

theorem grows_dir {t : Tree} {q : Place} (h : t q = none) : Grows t (t.set q .dir) := by
  have ne : ∀ x n, t x = some n → x ≠ q := by rintro x n e rfl; rw [h] at e; cases e
  refine ⟨fun x e => ?_, fun x l e => ?_, fun x c e => ⟨c, ?_⟩, fun x l e => ?_⟩
  · rw [set_other _ _ (ne _ _ e)]; exact e
  · rw [set_other _ _ (ne _ _ e)]; exact e
  · rw [set_other _ _ (ne _ _ e)]; exact e
  · by_cases hx : x = q
    · subst hx; rw [set_self] at e; cases e
    · rwa [set_other _ _ hx] at e

theorem grows_file {t : Tree} {q : Place} {c : Bytes} (h : t q = none ∨ ∃ c, t q = some (.file c)) : Grows t (t.set q (.file c)) := by
  have ne : ∀ x n, t x = some n → (∀ c, n ≠ .file c) → x ≠ q := by
    rintro x n e hn rfl
    rcases h with h | ⟨d, h⟩
    · rw [h] at e; cases e
    · rw [h] at e; cases e; exact hn d rfl
  refine ⟨fun x e => ?_, fun x l e => ?_, fun x d e => ?_, fun x l e => ?_⟩
  · rw [set_other _ _ (ne _ _ e nofun)]; exact e
  · rw [set_other _ _ (ne _ _ e nofun)]; exact e
  · by_cases hx : x = q
    · subst hx; exact ⟨c, set_self ..⟩
    · exact ⟨d, by rw [set_other _ _ hx]; exact e⟩
  · by_cases hx : x = q
    · subst hx; rw [set_self] at e; cases e
    · rwa [set_other _ _ hx] at e

/-! ### the way -/

theorem follow_nil (t : Tree) (n : Nat) (cur : Place) : follow t n cur [] = some cur := by cases n <;> rfl

theorem follow_skip (t : Tree) (n : Nat) (cur : Place) {x : Bytes} (rest : List Bytes) (h : x = [] ∨ x = ascii ".") : follow t n cur (x :: rest) = follow t n cur rest := by
  cases n <;> rw [follow, along, if_pos h]

theorem follow_up (t : Tree) (n : Nat) (cur : Place) (rest : List Bytes) : follow t n cur (ascii ".." :: rest) = follow t n cur.dropLast rest := by
  cases n <;> rw [follow, along, if_neg (by decide), if_pos rfl]

theorem follow_dir {t : Tree} (n : Nat) {cur : Place} {x : Bytes} (rest : List Bytes) (h : ¬ (x = [] ∨ x = ascii ".")) (h' : x ≠ ascii "..") (hd : t (cur ++ [x]) = some .dir) :
    follow t n cur (x :: rest) = follow t n (cur ++ [x]) rest := by
  cases n <;> rw [follow, along, if_neg h, if_neg h', hd]

theorem follow_link {t : Tree} (n : Nat) {cur : Place} {x : Bytes} (rest : List Bytes) {l : Bytes} (h : ¬ (x = [] ∨ x = ascii ".")) (h' : x ≠ ascii "..")
    (hd : t (cur ++ [x]) = some (.link l)) : follow t (n + 1) cur (x :: rest) = follow t n (if l.head? = some 47 then [] else cur) (components l ++ rest) := by
  rw [follow, along, if_neg h, if_neg h', hd]

theorem follow_loop {t : Tree} {cur : Place} {x : Bytes} (rest : List Bytes) {l : Bytes} (h : ¬ (x = [] ∨ x = ascii ".")) (h' : x ≠ ascii "..")
    (hd : t (cur ++ [x]) = some (.link l)) : follow t 0 cur (x :: rest) = none := by
  rw [follow, along, if_neg h, if_neg h', hd]

theorem follow_end {t : Tree} (n : Nat) {cur : Place} {x : Bytes} (rest : List Bytes) (h : ¬ (x = [] ∨ x = ascii ".")) (h' : x ≠ ascii "..")
    (hd : t (cur ++ [x]) = none ∨ ∃ c, t (cur ++ [x]) = some (.file c)) : follow t n cur (x :: rest) = if rest = [] then some (cur ++ [x]) else none := by
  cases n <;> rw [follow, along, if_neg h, if_neg h'] <;> rcases hd with hd | ⟨c, hd⟩ <;> rw [hd]

/-- induction along the way -/
theorem way_induct {t : Tree} {motive : Nat → Place → List Bytes → Place → Prop}
    (nil : ∀ n cur, motive n cur [] cur)
    (skip : ∀ n cur x rest q, (x = [] ∨ x = ascii ".") → follow t n cur rest = some q → motive n cur rest q → motive n cur (x :: rest) q)
    (up : ∀ n cur rest q, follow t n cur.dropLast rest = some q → motive n cur.dropLast rest q → motive n cur (ascii ".." :: rest) q)
    (dir : ∀ n cur x rest q, ¬ (x = [] ∨ x = ascii ".") → x ≠ ascii ".." → t (cur ++ [x]) = some .dir → follow t n (cur ++ [x]) rest = some q → motive n (cur ++ [x]) rest q →
      motive n cur (x :: rest) q)
    (link : ∀ n cur x rest q l, ¬ (x = [] ∨ x = ascii ".") → x ≠ ascii ".." → t (cur ++ [x]) = some (.link l) →
      follow t n (if l.head? = some 47 then [] else cur) (components l ++ rest) = some q →
      motive n (if l.head? = some 47 then [] else cur) (components l ++ rest) q → motive (n + 1) cur (x :: rest) q)
    (last : ∀ n cur x, ¬ (x = [] ∨ x = ascii ".") → x ≠ ascii ".." → (t (cur ++ [x]) = none ∨ ∃ c, t (cur ++ [x]) = some (.file c)) → motive n cur [x] (cur ++ [x]))
    (n : Nat) (cur : Place) (todo : List Bytes) (q : Place) (h : follow t n cur todo = some q) : motive n cur todo q := by
  induction n generalizing cur todo with
  | zero =>
    induction todo generalizing cur with
    | nil => rw [follow_nil] at h; cases h; exact nil _ _
    | cons x rest ih =>
      by_cases hx : x = [] ∨ x = ascii "."
      · rw [follow_skip _ _ _ _ hx] at h; exact skip _ _ _ _ _ hx h (ih _ h)
      by_cases hu : x = ascii ".."
      · subst hu; rw [follow_up] at h; exact up _ _ _ _ h (ih _ h)
      have leaf : ∀ _ : t (cur ++ [x]) = none ∨ ∃ c, t (cur ++ [x]) = some (.file c), motive 0 cur (x :: rest) q := by
        intro hd
        rw [follow_end _ _ hx hu hd] at h
        split at h
        · rename_i e; subst e; cases h; exact last _ _ _ hx hu hd
        · cases h
      cases e : t (cur ++ [x]) with
      | none => exact leaf (.inl e)
      | some nd => cases nd with
        | dir => rw [follow_dir _ _ hx hu e] at h; exact dir _ _ _ _ _ hx hu e h (ih _ h)
        | file c => exact leaf (.inr ⟨c, e⟩)
        | link l => rw [follow_loop _ hx hu e] at h; cases h
  | succ n ihn =>
    induction todo generalizing cur with
    | nil => rw [follow_nil] at h; cases h; exact nil _ _
    | cons x rest ih =>
      by_cases hx : x = [] ∨ x = ascii "."
      · rw [follow_skip _ _ _ _ hx] at h; exact skip _ _ _ _ _ hx h (ih _ h)
      by_cases hu : x = ascii ".."
      · subst hu; rw [follow_up] at h; exact up _ _ _ _ h (ih _ h)
      have leaf : ∀ _ : t (cur ++ [x]) = none ∨ ∃ c, t (cur ++ [x]) = some (.file c), motive (n + 1) cur (x :: rest) q := by
        intro hd
        rw [follow_end _ _ hx hu hd] at h
        split at h
        · rename_i e; subst e; cases h; exact last _ _ _ hx hu hd
        · cases h
      cases e : t (cur ++ [x]) with
      | none => exact leaf (.inl e)
      | some nd => cases nd with
        | dir => rw [follow_dir _ _ hx hu e] at h; exact dir _ _ _ _ _ hx hu e h (ih _ h)
        | file c => exact leaf (.inr ⟨c, e⟩)
        | link l => rw [follow_link _ _ hx hu e] at h; exact link _ _ _ _ _ _ hx hu e h (ihn _ _ h)

/-- what is found stays found -/
theorem follow_mono {t t' : Tree} (g : Grows t t') {n : Nat} {cur : Place} {todo : List Bytes} {q : Place} (h : follow t n cur todo = some q) : follow t' n cur todo = some q := by
  refine way_induct (t := t) (motive := fun n cur todo q => follow t' n cur todo = some q) ?_ ?_ ?_ ?_ ?_ ?_ n cur todo q h
  · intro n cur; exact follow_nil ..
  · intro n cur x rest q hx _ ih; rw [follow_skip _ _ _ _ hx]; exact ih
  · intro n cur rest q _ ih; rw [follow_up]; exact ih
  · intro n cur x rest q hx hu hd _ ih; rw [follow_dir _ _ hx hu (g.dir _ hd)]; exact ih
  · intro n cur x rest q l hx hu hd _ ih; rw [follow_link _ _ hx hu (g.link _ _ hd)]; exact ih
  · intro n cur x hx hu hd
    cases e : t' (cur ++ [x]) with
    | none => rw [follow_end _ _ hx hu (.inl e), if_pos rfl]
    | some nd => cases nd with
      | dir => rw [follow_dir _ _ hx hu e, follow_nil]
      | file c => rw [follow_end _ _ hx hu (.inr ⟨c, e⟩), if_pos rfl]
      | link l =>
        have := g.new _ _ e
        rcases hd with hd | ⟨c, hd⟩ <;> rw [hd] at this <;> cases this

theorem real_mono {t t' : Tree} (g : Grows t t') {cwd : Place} {p : Bytes} {q : Place} (h : real t cwd p = some q) : real t' cwd p = some q := follow_mono g h

/-- the way to the end of a path leads through the end of its first part -/
theorem follow_split {t : Tree} {n : Nat} {cur : Place} {a b : List Bytes} {q : Place} (h : follow t n cur (a ++ b) = some q) :
    ∃ m w, m ≤ n ∧ follow t n cur a = some w ∧ follow t m w b = some q := by
  refine way_induct (t := t) (motive := fun n cur todo q => ∀ a b, todo = a ++ b → ∃ m w, m ≤ n ∧ follow t n cur a = some w ∧ follow t m w b = some q) ?_ ?_ ?_ ?_ ?_ ?_ n cur (a ++ b) q h a b rfl
  · intro n cur a b e
    obtain ⟨rfl, rfl⟩ := List.append_eq_nil_iff.mp e.symm
    exact ⟨n, cur, Nat.le_refl _, follow_nil .., follow_nil ..⟩
  · intro n cur x rest q hx hf ih a b e
    cases a with
    | nil => exact ⟨n, cur, Nat.le_refl _, follow_nil .., by rw [List.nil_append] at e; rw [← e, follow_skip _ _ _ _ hx]; exact hf⟩
    | cons y a =>
      obtain ⟨rfl, e'⟩ := List.cons.inj e
      obtain ⟨m, w, h1, h2, h3⟩ := ih a b e'
      exact ⟨m, w, h1, by rw [follow_skip _ _ _ _ hx]; exact h2, h3⟩
  · intro n cur rest q hf ih a b e
    cases a with
    | nil => exact ⟨n, cur, Nat.le_refl _, follow_nil .., by rw [List.nil_append] at e; rw [← e, follow_up]; exact hf⟩
    | cons y a =>
      obtain ⟨rfl, e'⟩ := List.cons.inj e
      obtain ⟨m, w, h1, h2, h3⟩ := ih a b e'
      exact ⟨m, w, h1, by rw [follow_up]; exact h2, h3⟩
  · intro n cur x rest q hx hu hd hf ih a b e
    cases a with
    | nil => exact ⟨n, cur, Nat.le_refl _, follow_nil .., by rw [List.nil_append] at e; rw [← e, follow_dir _ _ hx hu hd]; exact hf⟩
    | cons y a =>
      obtain ⟨rfl, e'⟩ := List.cons.inj e
      obtain ⟨m, w, h1, h2, h3⟩ := ih a b e'
      exact ⟨m, w, h1, by rw [follow_dir _ _ hx hu hd]; exact h2, h3⟩
  · intro n cur x rest q l hx hu hd hf ih a b e
    cases a with
    | nil => exact ⟨n + 1, cur, Nat.le_refl _, follow_nil .., by rw [List.nil_append] at e; rw [← e, follow_link _ _ hx hu hd]; exact hf⟩
    | cons y a =>
      obtain ⟨rfl, e'⟩ := List.cons.inj e
      obtain ⟨m, w, h1, h2, h3⟩ := ih (components l ++ a) b (by rw [e', List.append_assoc]; rfl)
      exact ⟨m, w, by omega, by rw [follow_link _ _ hx hu hd]; exact h2, h3⟩
  · intro n cur x hx hu hd a b e
    cases a with
    | nil => exact ⟨n, cur, Nat.le_refl _, follow_nil .., by rw [List.nil_append] at e; rw [← e, follow_end _ _ hx hu hd, if_pos rfl]⟩
    | cons y a =>
      obtain ⟨rfl, e'⟩ := List.cons.inj e
      obtain ⟨rfl, rfl⟩ := List.append_eq_nil_iff.mp e'.symm
      exact ⟨n, _, Nat.le_refl _, by rw [follow_end _ _ hx hu hd, if_pos rfl], follow_nil ..⟩

theorem parent_dir {cwd cur : Place} {t : Tree} (hp : Proper cwd t) (h : t cur = some .dir) : t cur.dropLast = some .dir := by
  cases hl : cur.getLast? with
  | none =>
    rw [List.getLast?_eq_none_iff] at hl
    subst hl; exact h
  | some x =>
    have e : cur.dropLast ++ [x] = cur := by
      rw [List.getLast?_eq_some_iff] at hl
      obtain ⟨ys, rfl⟩ := hl
      simp
    exact hp.way cur.dropLast [x] nofun (by rw [e, h]; nofun)

/-- what is found is a directory or in a directory -/
theorem follow_in {cwd : Place} {t : Tree} (hp : Proper cwd t) {n : Nat} {cur : Place} {todo : List Bytes} {q : Place} (h : follow t n cur todo = some q) (hc : t cur = some .dir) :
    t q = some .dir ∨ ∃ d x, q = d ++ [x] ∧ t d = some .dir := by
  refine way_induct (t := t) (motive := fun n cur todo q => t cur = some .dir → t q = some .dir ∨ ∃ d x, q = d ++ [x] ∧ t d = some .dir) ?_ ?_ ?_ ?_ ?_ ?_ n cur todo q h hc
  · intro n cur hc; exact .inl hc
  · intro n cur x rest q _ _ ih hc; exact ih hc
  · intro n cur rest q _ ih hc; exact ih (parent_dir hp hc)
  · intro n cur x rest q _ _ hd _ ih _; exact ih hd
  · intro n cur x rest q l _ _ _ _ ih hc
    apply ih
    split
    · exact hp.root
    · exact hc
  · intro n cur x _ _ _ hc; exact .inr ⟨cur, x, rfl, hc⟩

theorem start_dir {cwd : Place} {t : Tree} (hp : Proper cwd t) (p : Bytes) : t (start cwd p) = some .dir := by
  unfold start
  split
  · exact hp.root
  · exact hp.cwd

/-! ### trees stay proper -/

theorem proper_set {cwd : Place} {t : Tree} (hp : Proper cwd t) {q : Place} {nd : Node} (h : t q = none ∧ (∃ d x, q = d ++ [x] ∧ t d = some .dir) ∨ (∃ c, t q = some (.file c)) ∧ ∃ c, nd = .file c) :
    Proper cwd (t.set q nd) := by
  have hne : ∀ x, t x = some .dir → x ≠ q := by
    rintro x e rfl
    rcases h with ⟨h, -⟩ | ⟨⟨c, h⟩, -⟩ <;> rw [h] at e <;> cases e
  refine ⟨?_, by rw [set_other _ _ (hne _ hp.root)]; exact hp.root, by rw [set_other _ _ (hne _ hp.cwd)]; exact hp.cwd⟩
  intro x r hr hx
  have key : t x = some .dir := by
    by_cases e : x ++ r = q
    · rcases h with ⟨h, d, y, rfl, hd⟩ | ⟨⟨c, h⟩, -⟩
      · rcases List.eq_nil_or_concat r with rfl | ⟨r', z, rfl⟩
        · exact absurd rfl hr
        · rw [List.concat_eq_append, ← List.append_assoc] at e
          obtain ⟨rfl, -⟩ := List.append_inj' e rfl
          cases r' with
          | nil => simpa using hd
          | cons y r' => exact hp.way x (y :: r') nofun (by rw [hd]; nofun)
      · exact hp.way x r hr (by rw [e, h]; nofun)
    · exact hp.way x r hr (by rwa [set_other _ _ e] at hx)
  rw [set_other _ _ (hne _ key)]
  exact key

theorem mkdirs_grows {cwd from_ : Place} {ds todo : List Bytes} {t t' : Tree} {b : Bool} (h : Mkdirs from_ ds todo t b t') (hp : Proper cwd t) :
    Grows t t' ∧ Proper cwd t' ∧ ∀ q, t' q = t q ∨ t q = none ∧ t' q = some .dir := by
  induction h with
  | done ds t => exact ⟨.refl t, hp, fun _ => .inl rfl⟩
  | there _ _ _ _ _ _ _ _ _ _ ih => exact ih hp
  | make ds x todo t t' b q h1 h2 h3 h4 _ ih =>
    obtain ⟨i1, i2, i3⟩ := ih (proper_set hp (.inl ⟨h4, q, x, rfl, h2⟩))
    refine ⟨(grows_dir h4).trans i1, i2, fun y => ?_⟩
    by_cases e : y = q ++ [x]
    · subst e
      refine .inr ⟨h4, ?_⟩
      rcases i3 (q ++ [x]) with h | ⟨h, -⟩
      · rw [h, set_self]
      · rw [set_self] at h; cases h
    · have := i3 y
      rwa [set_other _ _ e] at this
  | fail ds x todo t => exact ⟨.refl t, hp, fun _ => .inl rfl⟩

theorem file_place {cwd : Place} {t : Tree} (hp : Proper cwd t) {p : Bytes} {q : Place} {c : Bytes} (hr : real t cwd p = some q) (h : t q = none ∨ ∃ c, t q = some (.file c)) :
    Grows t (t.set q (.file c)) ∧ Proper cwd (t.set q (.file c)) := by
  refine ⟨grows_file h, proper_set hp ?_⟩
  rcases h with h | h
  · rcases follow_in hp hr (start_dir hp p) with e | e
    · rw [h] at e; cases e
    · exact .inl ⟨h, e⟩
  · exact .inr ⟨h, c, rfl⟩

theorem exec_grows {sp : Bool} {cwd : Place} {prog : Prog} {t t' : Tree} {o : Outcome} (h : LinkExec sp cwd prog t o t') (hp : Proper cwd t) : Grows t t' ∧ Proper cwd t' := by
  induction h with
  | ret r t => exact ⟨.refl t, hp⟩
  | crash p t => exact ⟨.refl t, hp⟩
  | open_ok _ _ _ _ _ _ _ _ ih => exact ih hp
  | open_fail _ _ _ _ _ _ _ ih => exact ih hp
  | mkdir path k t t' t'' o b hm _ ih =>
    obtain ⟨g, hp', -⟩ := mkdirs_grows hm hp
    obtain ⟨g', hp''⟩ := ih hp'
    exact ⟨g.trans g', hp''⟩
  | trunc_ok path k t t' o q hr hq _ ih =>
    obtain ⟨g, hp'⟩ := file_place hp hr hq
    obtain ⟨g', hp''⟩ := ih hp'
    exact ⟨g.trans g', hp''⟩
  | trunc_fail _ _ _ _ _ _ ih => exact ih hp
  | size_ok _ _ _ _ _ _ _ _ ih => exact ih hp
  | size_fail _ _ _ _ _ _ ih => exact ih hp
  | truncate_ok path n k t t' o q c hr hq _ ih =>
    obtain ⟨g, hp'⟩ := file_place hp hr (.inr ⟨c, hq⟩)
    obtain ⟨g', hp''⟩ := ih hp'
    exact ⟨g.trans g', hp''⟩
  | truncate_fail _ _ _ _ _ _ _ ih => exact ih hp
  | write_ok path pos data k t t' o q c hr hq _ ih =>
    obtain ⟨g, hp'⟩ := file_place hp hr (.inr ⟨c, hq⟩)
    obtain ⟨g', hp''⟩ := ih hp'
    exact ⟨g.trans g', hp''⟩
  | write_fail path pos data k t t' o q c j hr hq _ ih =>
    obtain ⟨g, hp'⟩ := file_place hp hr (.inr ⟨c, hq⟩)
    obtain ⟨g', hp''⟩ := ih hp'
    exact ⟨g.trans g', hp''⟩
  | write_crash path pos data k t q c j hr hq => exact file_place hp hr (.inr ⟨c, hq⟩)

end Verif.Links
