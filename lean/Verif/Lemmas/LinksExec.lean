import Verif.Lemmas.Links
import Verif.Lemmas.Path
import Verif.Lemmas.Torrent
/-
More lemmas about symbolic links: what executions change, and where cleaned paths lead.
-/
set_option autoImplicit false

namespace Verif.Links
open Verif.LinksSpec Verif.Dirs Verif.FS Verif.FileIO Verif.Path

/-- the way to the end of a path leads through the end of its first part, which is a directory -/
theorem follow_split_dir {cwd : Place} {t : Tree} (hp : Proper cwd t) {n : Nat} {cur : Place} {a b : List Bytes} {q : Place} (h : follow t n cur (a ++ b) = some q) (hc : t cur = some .dir) :
    ∃ m w, m ≤ n ∧ follow t n cur a = some w ∧ follow t m w b = some q ∧ (t w = some .dir ∨ b = []) := by
  refine way_induct (t := t) (motive := fun n cur todo q => t cur = some .dir → ∀ a b, todo = a ++ b →
    ∃ m w, m ≤ n ∧ follow t n cur a = some w ∧ follow t m w b = some q ∧ (t w = some .dir ∨ b = [])) ?_ ?_ ?_ ?_ ?_ ?_ n cur (a ++ b) q h hc a b rfl
  · intro n cur hc a b e
    obtain ⟨rfl, rfl⟩ := List.append_eq_nil_iff.mp e.symm
    exact ⟨n, cur, Nat.le_refl _, follow_nil .., follow_nil .., .inl hc⟩
  · intro n cur x rest q hx hf ih hc a b e
    cases a with
    | nil => exact ⟨n, cur, Nat.le_refl _, follow_nil .., by rw [List.nil_append] at e; rw [← e, follow_skip _ _ _ _ hx]; exact hf, .inl hc⟩
    | cons y a =>
      obtain ⟨rfl, e'⟩ := List.cons.inj e
      obtain ⟨m, w, h1, h2, h3⟩ := ih hc a b e'
      exact ⟨m, w, h1, by rw [follow_skip _ _ _ _ hx]; exact h2, h3⟩
  · intro n cur rest q hf ih hc a b e
    cases a with
    | nil => exact ⟨n, cur, Nat.le_refl _, follow_nil .., by rw [List.nil_append] at e; rw [← e, follow_up]; exact hf, .inl hc⟩
    | cons y a =>
      obtain ⟨rfl, e'⟩ := List.cons.inj e
      obtain ⟨m, w, h1, h2, h3⟩ := ih (parent_dir hp hc) a b e'
      exact ⟨m, w, h1, by rw [follow_up]; exact h2, h3⟩
  · intro n cur x rest q hx hu hd hf ih hc a b e
    cases a with
    | nil => exact ⟨n, cur, Nat.le_refl _, follow_nil .., by rw [List.nil_append] at e; rw [← e, follow_dir _ _ hx hu hd]; exact hf, .inl hc⟩
    | cons y a =>
      obtain ⟨rfl, e'⟩ := List.cons.inj e
      obtain ⟨m, w, h1, h2, h3⟩ := ih hd a b e'
      exact ⟨m, w, h1, by rw [follow_dir _ _ hx hu hd]; exact h2, h3⟩
  · intro n cur x rest q l hx hu hd hf ih hc a b e
    cases a with
    | nil => exact ⟨n + 1, cur, Nat.le_refl _, follow_nil .., by rw [List.nil_append] at e; rw [← e, follow_link _ _ hx hu hd]; exact hf, .inl hc⟩
    | cons y a =>
      obtain ⟨rfl, e'⟩ := List.cons.inj e
      obtain ⟨m, w, h1, h2, h3⟩ := ih (by split; exact hp.root; exact hc) (components l ++ a) b (by rw [e', List.append_assoc]; rfl)
      exact ⟨m, w, by omega, by rw [follow_link _ _ hx hu hd]; exact h2, h3⟩
  · intro n cur x hx hu hd hc a b e
    cases a with
    | nil => exact ⟨n, cur, Nat.le_refl _, follow_nil .., by rw [List.nil_append] at e; rw [← e, follow_end _ _ hx hu hd, if_pos rfl], .inl hc⟩
    | cons y a =>
      obtain ⟨rfl, e'⟩ := List.cons.inj e
      obtain ⟨rfl, rfl⟩ := List.append_eq_nil_iff.mp e'.symm
      exact ⟨n, _, Nat.le_refl _, by rw [follow_end _ _ hx hu hd, if_pos rfl], follow_nil .., .inr rfl⟩

/-- a way can be extended, without another link, from a directory -/
theorem follow_extend {t : Tree} {n : Nat} {cur : Place} {a : List Bytes} {w : Place} (h : follow t n cur a = some w) (hw : t w = some .dir) {b : List Bytes} {q : Place}
    (hb : ∀ m, follow t m w b = some q) : follow t n cur (a ++ b) = some q := by
  refine way_induct (t := t) (motive := fun n cur a w => t w = some .dir → (∀ m, follow t m w b = some q) → follow t n cur (a ++ b) = some q) ?_ ?_ ?_ ?_ ?_ ?_ n cur a w h hw hb
  · intro n cur _ hb; exact hb n
  · intro n cur x rest q hx hf ih hw hb; rw [List.cons_append, follow_skip _ _ _ _ hx]; exact ih hw hb
  · intro n cur rest q hf ih hw hb; rw [List.cons_append, follow_up]; exact ih hw hb
  · intro n cur x rest q hx hu hd hf ih hw hb; rw [List.cons_append, follow_dir _ _ hx hu hd]; exact ih hw hb
  · intro n cur x rest q l hx hu hd hf ih hw hb; rw [List.cons_append, follow_link _ _ hx hu hd, ← List.append_assoc]; exact ih hw hb
  · intro n cur x hx hu hd hw hb
    rcases hd with hd | ⟨c, hd⟩ <;> rw [hd] at hw <;> cases hw

/-- new directories are on the way -/
theorem mkdirs_changes {cwd from_ : Place} {ds todo : List Bytes} {t t' : Tree} {b : Bool} (h : Mkdirs from_ ds todo t b t') (hp : Proper cwd t) (q : Place) :
    t' q = t q ∨ t q = none ∧ t' q = some .dir ∧ ∃ as bs, ds ++ todo = as ++ bs ∧ follow t' 40 from_ as = some q := by
  induction h with
  | done ds t => exact .inl rfl
  | there ds x todo t t' b w _ _ _ ih =>
    rcases ih hp with e | ⟨e1, e2, as, bs, e3, e4⟩
    · exact .inl e
    · exact .inr ⟨e1, e2, as, bs, by rw [← e3, List.append_assoc]; rfl, e4⟩
  | make ds x todo t t' b w h1 h2 h3 h4 hm ih =>
    have hp' := proper_set (nd := .dir) hp (.inl ⟨h4, w, x, rfl, h2⟩)
    obtain ⟨g, -, -⟩ := mkdirs_grows hm hp'
    by_cases e : q = w ++ [x]
    · subst e
      refine .inr ⟨h4, g.dir _ (set_self ..), ds ++ [x], todo, by simp, follow_mono g ?_⟩
      have g1 := grows_dir h4
      refine follow_extend (follow_mono g1 h1) (g1.dir _ h2) fun m => ?_
      rw [follow_dir _ _ (fun e => h3 (e.elim .inl fun e => .inr (.inl e))) (fun e => h3 (.inr (.inr e))) (set_self ..), follow_nil]
    · rcases ih hp' with e1 | ⟨e1, e2, as, bs, e3, e4⟩
      · rw [set_other _ _ e] at e1; exact .inl e1
      · rw [set_other _ _ e] at e1
        exact .inr ⟨e1, e2, as, bs, by rw [← e3, List.append_assoc]; rfl, e4⟩
  | fail ds x todo t => exact .inl rfl

/-- how the place has changed: not at all, or a directory has been made on the way to one of the paths, or it is the file that one of the paths leads to -/
def Changed (ps : List Bytes) (cwd : Place) (t t' : Tree) (q : Place) : Prop :=
  (t q = none ∧ t' q = some .dir ∧ ∃ p ∈ ps, ∃ as bs, (components p).dropLast = as ++ bs ∧ follow t' 40 (start cwd p) as = some q) ∨
  ((t q = none ∨ ∃ c, t q = some (.file c)) ∧ (∃ c, t' q = some (.file c)) ∧ ∃ p ∈ ps, real t' cwd p = some q)

theorem changed_later {ps : List Bytes} {cwd : Place} {t t1 t' : Tree} {q : Place} (h : t1 q = t q ∨ Changed ps cwd t t1 q) (g : Grows t1 t') (h' : t' q = t1 q ∨ Changed ps cwd t1 t' q) :
    t' q = t q ∨ Changed ps cwd t t' q := by
  rcases h with h | ⟨h1, h2, p, hp, as, bs, e1, e2⟩ | ⟨h1, ⟨c, h2⟩, p, hp, h3⟩
  · rcases h' with h' | h'
    · exact .inl (h'.trans h)
    · unfold Changed at h' ⊢
      rw [h] at h'
      exact .inr h'
  · exact .inr (.inl ⟨h1, g.dir _ h2, p, hp, as, bs, e1, follow_mono g e2⟩)
  · exact .inr (.inr ⟨h1, g.file _ _ h2, p, hp, real_mono g h3⟩)

theorem changed_file {ps : List Bytes} {cwd : Place} {t : Tree} (hpr : Proper cwd t) {p : Bytes} (hp : p ∈ ps) {w : Place} {c : Bytes} (hr : real t cwd p = some w)
    (h : t w = none ∨ ∃ c, t w = some (.file c)) (q : Place) : t.set w (.file c) q = t q ∨ Changed ps cwd t (t.set w (.file c)) q := by
  by_cases e : q = w
  · subst e
    exact .inr (.inr ⟨h, ⟨c, set_self ..⟩, p, hp, real_mono (file_place hpr hr h).1 hr⟩)
  · exact .inl (set_other _ _ e)

theorem exec_changes {sp : Bool} {cwd : Place} {prog : Prog} {t t' : Tree} {o : Outcome} (h : LinkExec sp cwd prog t o t') (hp : Proper cwd t) {ps : List Bytes} (hu : Uses ps prog) (q : Place) :
    t' q = t q ∨ Changed ps cwd t t' q := by
  induction h with
  | ret r t => exact .inl rfl
  | crash p t => exact .inl rfl
  | open_ok _ _ _ _ _ _ _ _ ih => exact ih hp (hu.2 _)
  | open_fail _ _ _ _ _ _ _ ih => exact ih hp (hu.2 _)
  | mkdir path k t t' t'' o b hm hx ih =>
    obtain ⟨g, hp', -⟩ := mkdirs_grows hm hp
    obtain ⟨g', -⟩ := exec_grows hx hp'
    refine changed_later ?_ g' (ih hp' (hu.2 _))
    rcases mkdirs_changes hm hp q with e | ⟨e1, e2, as, bs, e3, e4⟩
    · exact .inl e
    · exact .inr (.inl ⟨e1, e2, path, hu.1, as, bs, e3, e4⟩)
  | trunc_ok path k t t' o w hr hq hx ih =>
    obtain ⟨g, hp'⟩ := file_place (c := []) hp hr hq
    exact changed_later (changed_file hp hu.1 hr hq q) (exec_grows hx hp').1 (ih hp' (hu.2 _))
  | trunc_fail _ _ _ _ _ _ ih => exact ih hp (hu.2 _)
  | size_ok _ _ _ _ _ _ _ _ ih => exact ih hp (hu.2 _)
  | size_fail _ _ _ _ _ _ ih => exact ih hp (hu.2 _)
  | truncate_ok path n k t t' o w c hr hq hx ih =>
    obtain ⟨g, hp'⟩ := file_place (c := c.take n) hp hr (.inr ⟨c, hq⟩)
    exact changed_later (changed_file hp hu.1 hr (.inr ⟨c, hq⟩) q) (exec_grows hx hp').1 (ih hp' (hu.2 _))
  | truncate_fail _ _ _ _ _ _ _ ih => exact ih hp (hu.2 _)
  | write_ok path pos data k t t' o w c hr hq hx ih =>
    obtain ⟨g, hp'⟩ := file_place (c := writeAt c pos data) hp hr (.inr ⟨c, hq⟩)
    exact changed_later (changed_file hp hu.1 hr (.inr ⟨c, hq⟩) q) (exec_grows hx hp').1 (ih hp' (hu.2 _))
  | write_fail path pos data k t t' o w c j hr hq hx ih =>
    obtain ⟨g, hp'⟩ := file_place (c := writeAt c pos (data.take j)) hp hr (.inr ⟨c, hq⟩)
    exact changed_later (changed_file hp hu.1 hr (.inr ⟨c, hq⟩) q) (exec_grows hx hp').1 (ih hp' (hu.2 _))
  | write_crash path pos data k t w c j hr hq => exact changed_file hp hu.1 hr (.inr ⟨c, hq⟩) q

/-! ### the paths that preparing files uses -/

theorem uses_bind {ps : List Bytes} {prog : Prog} {f : Res Unit → Prog} (h : Uses ps prog) (hf : ∀ r, Uses ps (f r)) : Uses ps (prog.bind f) := by
  induction prog with
  | ret r => exact hf r
  | _ => rename_i ih; exact ⟨h.1, fun b => ih b (h.2 b)⟩

theorem uses_loop {ps : List Bytes} {p : Bytes} (hp : p ∈ ps) : ∀ (fuel pos : Nat) (left : Int), Uses ps (appendLoop p fuel pos left)
  | 0, _, _ => trivial
  | fuel + 1, pos, left => by
    rw [appendLoop]
    split
    · trivial
    · split
      · refine ⟨hp, fun b => ?_⟩
        cases b
        · trivial
        · exact uses_loop hp fuel _ _
      · split
        · trivial
        · refine ⟨hp, fun b => ?_⟩
          cases b
          · trivial
          · exact uses_loop hp fuel _ _

theorem uses_zeros {ps : List Bytes} {p : Bytes} (hp : p ∈ ps) (n : Int) : Uses ps (AppendZeros p n) := by
  refine ⟨hp, fun b => ?_⟩
  cases b
  · trivial
  · exact uses_loop hp _ _ _

theorem uses_check {ps : List Bytes} {p : Bytes} (hp : p ∈ ps) (n : Int) : Uses ps (checkSize p n) := by
  refine ⟨hp, fun b => ?_⟩
  cases b
  · trivial
  · simp only
    split
    · trivial
    · split
      · exact ⟨hp, fun b => trivial⟩
      · exact uses_zeros hp _

theorem uses_create {ps : List Bytes} {p : Bytes} (hp : p ∈ ps) (n : Int) : Uses ps (CreateZeroFilledFile p n) := by
  refine ⟨hp, fun b => ?_⟩
  cases b
  · trivial
  · refine ⟨hp, fun b => ?_⟩
    cases b
    · trivial
    · exact uses_zeros hp _

theorem uses_ocat {ps : List Bytes} {p : Bytes} (hp : p ∈ ps) (n : Int) : Uses ps (OCAT p n) := by
  refine ⟨hp, fun b => ?_⟩
  cases b
  · refine uses_bind (uses_create hp n) fun r => ?_
    cases r
    · exact uses_check hp n
    all_goals trivial
  · exact uses_check hp n

theorem uses_all {ps : List Bytes} : ∀ (es : List Files.Entry), (∀ e ∈ es, e.base.localPath ∈ ps) → Uses ps (OCATAll es)
  | [], _ => trivial
  | e :: es, h => by
    rw [OCATAll]
    refine uses_bind (uses_ocat (h e (.head _)) _) fun r => ?_
    cases r
    · exact uses_all es fun x hx => h x (.tail _ hx)
    all_goals trivial

end Verif.Links
