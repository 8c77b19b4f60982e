import Verif.Model.DirFS
import Verif.Model.FileIO
import Verif.Props.Places
/-
Property C88: every torrent that is accepted can be stored.
-/
set_option autoImplicit false

namespace Verif.DirFS
open Verif.FS Verif.Dirs Verif.Files Verif.FileIO Verif.Path Verif.Torrent Verif.Bencode Verif.Info Verif.Layout

/-- a disk that makes sense: what is on the way to a file or directory is a directory, and nothing is both a file and a directory -/
structure Tree (cwd : Place) (d : Disk) : Prop where
  root : d.dirs []
  files : ∀ p c q, d.files p = some c → Above q (resolve cwd p) → d.dirs q
  dirs : ∀ p q, d.dirs p → Above q p → d.dirs q
  excl : ∀ p c, d.files p = some c → ¬ d.dirs (resolve cwd p)

theorem above_trans {a b c : Place} (h1 : Above a b) (h2 : Above b c) : Above a c := by
  obtain ⟨r, hr, rfl⟩ := h1
  obtain ⟨s, -, rfl⟩ := h2
  exact ⟨r ++ s, by simp [hr], by simp⟩

/-- an execution with directories is one without -/
theorem DirExec.plain {sp : Bool} {cwd : Place} {p : Prog} {d d' : Disk} {o : Outcome} (h : DirExec sp cwd p d o d') : Exec sp p d.files o d'.files := by
  induction h with
  | ret r d => exact .ret _ _
  | crash p d => exact .crash _ _
  | open_ok path k d d' o c h1 _ ih => exact .open_ok _ _ _ _ _ c h1 ih
  | open_fail path k d d' o h1 _ ih => exact .open_fail _ _ _ _ _ h1 ih
  | mkdir_ok path k d d' o _ _ ih => exact .mkdir _ _ _ _ _ true ih
  | mkdir_fail path k d d' o _ ih => exact .mkdir _ _ _ _ _ false ih
  | mkdir_part path k d d' o q _ _ _ _ ih => exact .mkdir _ _ _ _ _ false ih
  | trunc_ok path k d d' o _ _ _ ih => exact .trunc_ok _ _ _ _ _ ih
  | trunc_fail path k d d' o _ ih => exact .trunc_fail _ _ _ _ _ ih
  | size_ok path k d d' o c h1 _ ih => exact .size_ok _ _ _ _ _ c h1 ih
  | size_fail path k d d' o _ ih => exact .size_fail _ _ _ _ _ ih
  | truncate_ok path n k d d' o c h1 _ ih => exact .truncate_ok _ _ _ _ _ _ c h1 ih
  | truncate_fail path n k d d' o _ ih => exact .truncate_fail _ _ _ _ _ _ ih
  | write_ok path pos data k d d' o c h1 _ ih => exact .write_ok _ _ _ _ _ _ _ c h1 ih
  | write_fail path pos data k d d' o c j h1 _ ih => exact .write_fail _ _ _ _ _ _ _ c j h1 ih
  | write_crash path pos data k d c j h1 => exact .write_crash _ _ _ _ _ c j h1

theorem tree_set {cwd : Place} {d : Disk} {path c c' : Bytes} (ht : Tree cwd d) (h : d.files path = some c) : Tree cwd (d.set path c') := by
  refine ⟨ht.root, ?_, ht.dirs, ?_⟩
  · intro p x q hp hq
    simp only [Disk.set, State.set] at hp
    split at hp
    · rename_i e; subst e; exact ht.files p c q h hq
    · exact ht.files p x q hp hq
  · intro p x hp
    simp only [Disk.set, State.set] at hp
    split at hp
    · rename_i e; subst e; exact ht.excl p c h
    · exact ht.excl p x hp

/-- what executions keep: the disk makes sense, no file or directory vanishes -/
theorem DirExec.keeps {sp : Bool} {cwd : Place} {p : Prog} {d d' : Disk} {o : Outcome} (h : DirExec sp cwd p d o d') (ht : Tree cwd d) :
    Tree cwd d' ∧ (∀ q, d.dirs q → d'.dirs q) ∧ ∀ p c, d.files p = some c → ∃ c', d'.files p = some c' := by
  have set_keeps : ∀ (d : Disk) (path x : Bytes), ∀ p c, d.files p = some c → ∃ c', (d.set path x).files p = some c' := by
    intro d path x p c hp
    by_cases e : p = path
    · exact ⟨x, by simp [Disk.set, State.set, e]⟩
    · exact ⟨c, by simpa [Disk.set, State.set, e] using hp⟩
  have chain : ∀ {a b c : Disk}, (∀ p x, a.files p = some x → ∃ y, b.files p = some y) → (∀ p x, b.files p = some x → ∃ y, c.files p = some y) →
      ∀ p x, a.files p = some x → ∃ y, c.files p = some y := by
    intro a b c h1 h2 p x hp
    obtain ⟨y, hy⟩ := h1 p x hp
    exact h2 p y hy
  induction h with
  | ret r d => exact ⟨ht, fun _ h => h, fun p c h => ⟨c, h⟩⟩
  | crash p d => exact ⟨ht, fun _ h => h, fun p c h => ⟨c, h⟩⟩
  | open_ok path k d d' o c h1 _ ih => exact ih ht
  | open_fail path k d d' o h1 _ ih => exact ih ht
  | mkdir_ok path k d d' o h1 _ ih =>
    obtain ⟨i1, i2, i3⟩ := ih ⟨.inl ht.root, fun p c q hp hq => .inl (ht.files p c q hp hq), fun p q hp hq => (by
      rcases hp with hp | hp
      · exact .inl (ht.dirs p q hp hq)
      · exact .inr (above_trans hq hp)), fun p c hp hd => (by
      rcases hd with hd | hd
      · exact ht.excl p c hp hd
      · have : d.files p = none := h1 _ hd p rfl
        rw [this] at hp; cases hp)⟩
    exact ⟨i1, fun q hq => i2 q (.inl hq), i3⟩
  | mkdir_fail path k d d' o _ ih => exact ih ht
  | mkdir_part path k d d' o q h1 h2 h3 _ ih =>
    obtain ⟨i1, i2, i3⟩ := ih ⟨.inl ht.root, fun p c q hp hq => .inl (ht.files p c q hp hq), fun p q hp hq => (by
      rcases hp with hp | hp | hp
      · exact .inl (ht.dirs p q hp hq)
      · subst hp; exact .inr (.inr hq)
      · exact .inr (.inr (above_trans hq hp))), fun p c hp hd => (by
      rcases hd with hd | hd | hd
      · exact ht.excl p c hp hd
      · have : d.files p = none := h2 p hd
        rw [show d.files p = some c from hp] at this; cases this
      · have : d.files p = none := h3 _ hd p rfl
        rw [show d.files p = some c from hp] at this; cases this)⟩
    exact ⟨i1, fun q hq => i2 q (.inl hq), i3⟩
  | trunc_ok path k d d' o h1 h2 _ ih =>
    obtain ⟨i1, i2, i3⟩ := ih (by
      refine ⟨ht.root, ?_, ht.dirs, ?_⟩
      · intro p x q hp hq
        simp only [Disk.set, State.set] at hp
        split at hp
        · rename_i e; subst e; exact h1 q hq
        · exact ht.files p x q hp hq
      · intro p x hp
        simp only [Disk.set, State.set] at hp
        split at hp
        · rename_i e; subst e; exact h2
        · exact ht.excl p x hp)
    exact ⟨i1, i2, chain (set_keeps d path []) i3⟩
  | trunc_fail path k d d' o _ ih => exact ih ht
  | size_ok path k d d' o c h1 _ ih => exact ih ht
  | size_fail path k d d' o _ ih => exact ih ht
  | truncate_ok path n k d d' o c h1 _ ih =>
    obtain ⟨i1, i2, i3⟩ := ih (tree_set ht h1)
    exact ⟨i1, i2, chain (set_keeps d path _) i3⟩
  | truncate_fail path n k d d' o _ ih => exact ih ht
  | write_ok path pos data k d d' o c h1 _ ih =>
    obtain ⟨i1, i2, i3⟩ := ih (tree_set ht h1)
    exact ⟨i1, i2, chain (set_keeps d path _) i3⟩
  | write_fail path pos data k d d' o c j h1 _ ih =>
    obtain ⟨i1, i2, i3⟩ := ih (tree_set ht h1)
    exact ⟨i1, i2, chain (set_keeps d path _) i3⟩
  | write_crash path pos data k d c j h1 => exact ⟨tree_set ht h1, fun _ h => h, set_keeps d path _⟩

theorem DirExec.bind_inv {sp : Bool} {cwd : Place} {p : Prog} {f : Res Unit → Prog} {d d' : Disk} {o : Outcome}
    (h : DirExec sp cwd (p.bind f) d o d') :
    (o = .crashed ∧ DirExec sp cwd p d .crashed d') ∨ ∃ r mid, DirExec sp cwd p d (.done r) mid ∧ DirExec sp cwd (f r) mid o d' := by
  induction p generalizing d with
  | ret r => exact .inr ⟨r, d, .ret _ _, h⟩
  | openRW path k ih =>
    cases h with
    | crash => exact .inl ⟨rfl, .crash _ _⟩
    | open_ok _ _ _ _ _ c hc h =>
      rcases ih _ h with ⟨e, h'⟩ | ⟨r, mid, h1, h2⟩
      · exact .inl ⟨e, .open_ok _ _ _ _ _ c hc h'⟩
      · exact .inr ⟨r, mid, .open_ok _ _ _ _ _ c hc h1, h2⟩
    | open_fail _ _ _ _ _ hc h =>
      rcases ih _ h with ⟨e, h'⟩ | ⟨r, mid, h1, h2⟩
      · exact .inl ⟨e, .open_fail _ _ _ _ _ hc h'⟩
      · exact .inr ⟨r, mid, .open_fail _ _ _ _ _ hc h1, h2⟩
  | mkdirAll path k ih =>
    cases h with
    | crash => exact .inl ⟨rfl, .crash _ _⟩
    | mkdir_ok _ _ _ _ _ hc h =>
      rcases ih _ h with ⟨e, h'⟩ | ⟨r, mid, h1, h2⟩
      · exact .inl ⟨e, .mkdir_ok _ _ _ _ _ hc h'⟩
      · exact .inr ⟨r, mid, .mkdir_ok _ _ _ _ _ hc h1, h2⟩
    | mkdir_fail _ _ _ _ _ h =>
      rcases ih _ h with ⟨e, h'⟩ | ⟨r, mid, h1, h2⟩
      · exact .inl ⟨e, .mkdir_fail _ _ _ _ _ h'⟩
      · exact .inr ⟨r, mid, .mkdir_fail _ _ _ _ _ h1, h2⟩
    | mkdir_part _ _ _ _ _ q a b c h =>
      rcases ih _ h with ⟨e, h'⟩ | ⟨r, mid, h1, h2⟩
      · exact .inl ⟨e, .mkdir_part _ _ _ _ _ q a b c h'⟩
      · exact .inr ⟨r, mid, .mkdir_part _ _ _ _ _ q a b c h1, h2⟩
  | openTrunc path k ih =>
    cases h with
    | crash => exact .inl ⟨rfl, .crash _ _⟩
    | trunc_ok _ _ _ _ _ a b h =>
      rcases ih _ h with ⟨e, h'⟩ | ⟨r, mid, h1, h2⟩
      · exact .inl ⟨e, .trunc_ok _ _ _ _ _ a b h'⟩
      · exact .inr ⟨r, mid, .trunc_ok _ _ _ _ _ a b h1, h2⟩
    | trunc_fail _ _ _ _ _ h =>
      rcases ih _ h with ⟨e, h'⟩ | ⟨r, mid, h1, h2⟩
      · exact .inl ⟨e, .trunc_fail _ _ _ _ _ h'⟩
      · exact .inr ⟨r, mid, .trunc_fail _ _ _ _ _ h1, h2⟩
  | size path k ih =>
    cases h with
    | crash => exact .inl ⟨rfl, .crash _ _⟩
    | size_ok _ _ _ _ _ c hc h =>
      rcases ih _ h with ⟨e, h'⟩ | ⟨r, mid, h1, h2⟩
      · exact .inl ⟨e, .size_ok _ _ _ _ _ c hc h'⟩
      · exact .inr ⟨r, mid, .size_ok _ _ _ _ _ c hc h1, h2⟩
    | size_fail _ _ _ _ _ h =>
      rcases ih _ h with ⟨e, h'⟩ | ⟨r, mid, h1, h2⟩
      · exact .inl ⟨e, .size_fail _ _ _ _ _ h'⟩
      · exact .inr ⟨r, mid, .size_fail _ _ _ _ _ h1, h2⟩
  | truncate path n k ih =>
    generalize hq : (Prog.truncate path n k).bind f = q at h
    cases h with
    | crash => exact .inl ⟨rfl, .crash _ _⟩
    | truncate_ok _ n' _ _ _ _ c hc h =>
      simp only [Prog.bind, Prog.truncate.injEq] at hq
      obtain ⟨rfl, rfl, rfl⟩ := hq
      rcases ih _ h with ⟨e, h'⟩ | ⟨r, mid, h1, h2⟩
      · exact .inl ⟨e, .truncate_ok _ _ _ _ _ _ c hc h'⟩
      · exact .inr ⟨r, mid, .truncate_ok _ _ _ _ _ _ c hc h1, h2⟩
    | truncate_fail _ n' _ _ _ _ h =>
      simp only [Prog.bind, Prog.truncate.injEq] at hq
      obtain ⟨rfl, rfl, rfl⟩ := hq
      rcases ih _ h with ⟨e, h'⟩ | ⟨r, mid, h1, h2⟩
      · exact .inl ⟨e, .truncate_fail _ _ _ _ _ _ h'⟩
      · exact .inr ⟨r, mid, .truncate_fail _ _ _ _ _ _ h1, h2⟩
    | _ => cases hq
  | write path pos data k ih =>
    cases h with
    | crash => exact .inl ⟨rfl, .crash _ _⟩
    | write_ok _ _ _ _ _ _ _ c hc h =>
      rcases ih _ h with ⟨e, h'⟩ | ⟨r, mid, h1, h2⟩
      · exact .inl ⟨e, .write_ok _ _ _ _ _ _ _ c hc h'⟩
      · exact .inr ⟨r, mid, .write_ok _ _ _ _ _ _ _ c hc h1, h2⟩
    | write_fail _ _ _ _ _ _ _ c j hc h =>
      rcases ih _ h with ⟨e, h'⟩ | ⟨r, mid, h1, h2⟩
      · exact .inl ⟨e, .write_fail _ _ _ _ _ _ _ c j hc h'⟩
      · exact .inr ⟨r, mid, .write_fail _ _ _ _ _ _ _ c j hc h1, h2⟩
    | write_crash _ _ _ _ _ c j hc => exact .inl ⟨rfl, .write_crash _ _ _ _ _ c j hc⟩

theorem DirExec.bind {sp : Bool} {cwd : Place} {p : Prog} {f : Res Unit → Prog} {d mid d' : Disk} {r : Res Unit} {o : Outcome}
    (h1 : DirExec sp cwd p d (.done r) mid) (h2 : DirExec sp cwd (f r) mid o d') : DirExec sp cwd (p.bind f) d o d' := by
  generalize ho : Outcome.done r = o1 at h1
  induction h1 with
  | ret r' fs => cases ho; exact h2
  | crash => cases ho
  | open_ok _ _ _ _ _ c hc _ ih => exact .open_ok _ _ _ _ _ c hc (ih h2 ho)
  | open_fail _ _ _ _ _ hc _ ih => exact .open_fail _ _ _ _ _ hc (ih h2 ho)
  | mkdir_ok _ _ _ _ _ hc _ ih => exact .mkdir_ok _ _ _ _ _ hc (ih h2 ho)
  | mkdir_fail _ _ _ _ _ _ ih => exact .mkdir_fail _ _ _ _ _ (ih h2 ho)
  | mkdir_part _ _ _ _ _ q a b c _ ih => exact .mkdir_part _ _ _ _ _ q a b c (ih h2 ho)
  | trunc_ok _ _ _ _ _ a b _ ih => exact .trunc_ok _ _ _ _ _ a b (ih h2 ho)
  | trunc_fail _ _ _ _ _ _ ih => exact .trunc_fail _ _ _ _ _ (ih h2 ho)
  | size_ok _ _ _ _ _ c hc _ ih => exact .size_ok _ _ _ _ _ c hc (ih h2 ho)
  | size_fail _ _ _ _ _ _ ih => exact .size_fail _ _ _ _ _ (ih h2 ho)
  | truncate_ok _ _ _ _ _ _ c hc _ ih => exact .truncate_ok _ _ _ _ _ _ c hc (ih h2 ho)
  | truncate_fail _ _ _ _ _ _ _ ih => exact .truncate_fail _ _ _ _ _ _ (ih h2 ho)
  | write_ok _ _ _ _ _ _ _ c hc _ ih => exact .write_ok _ _ _ _ _ _ _ c hc (ih h2 ho)
  | write_fail _ _ _ _ _ _ _ c j hc _ ih => exact .write_fail _ _ _ _ _ _ _ c j hc (ih h2 ho)
  | write_crash => cases ho

/-! ### success -/

theorem checkSize_exists {sp : Bool} {cwd : Place} {path : Bytes} {n : Int} {d d' : Disk} (h : DirExec sp cwd (checkSize path n) d (.done (.ok ())) d')
    (ht : Tree cwd d) : ∃ c, d'.files path = some c := by
  obtain ⟨-, -, hk⟩ := h.keeps ht
  unfold checkSize at h
  cases h with
  | size_ok _ _ _ _ _ c hc _ => exact hk _ c hc
  | size_fail _ _ _ _ _ h => cases h

theorem ocat_exists {sp : Bool} {cwd : Place} {path : Bytes} {n : Int} {d d' : Disk} (h : DirExec sp cwd (OCAT path n) d (.done (.ok ())) d')
    (ht : Tree cwd d) : ∃ c, d'.files path = some c := by
  unfold OCAT at h
  cases h with
  | open_ok _ _ _ _ _ c hc h => exact checkSize_exists h ht
  | open_fail _ _ _ _ _ hc h =>
    simp only [Bool.false_eq_true, if_false] at h
    rcases h.bind_inv with ⟨e, -⟩ | ⟨r, mid, h1, h2⟩
    · cases e
    · cases r with
      | ok u => exact checkSize_exists h2 (h1.keeps ht).1
      | err e => cases h2
      | panic => cases h2
      | timeout => cases h2

/-- after a success all files are there -/
theorem ocatAll_exists {sp : Bool} {cwd : Place} (es : List Entry) {d d' : Disk} (h : DirExec sp cwd (OCATAll es) d (.done (.ok ())) d')
    (ht : Tree cwd d) : ∀ e ∈ es, ∃ c, d'.files e.base.localPath = some c := by
  induction es generalizing d with
  | nil => simp
  | cons e es ih =>
    rw [OCATAll] at h
    rcases h.bind_inv with ⟨e, -⟩ | ⟨r, mid, h1, h2⟩
    · cases e
    · cases r with
      | ok u =>
        intro x hx
        rcases List.mem_cons.mp hx with rfl | hx
        · obtain ⟨c, hc⟩ := ocat_exists h1 ht
          exact (h2.keeps (h1.keeps ht).1).2.2 _ c hc
        · exact ih h2 (h1.keeps ht).1 x hx
      | err e => cases h2
      | panic => cases h2
      | timeout => cases h2

/-- nothing is in the way of the files: their places are no directories, and on the way to them there are no files, neither on the disk nor
of the torrent itself -/
def NothingInTheWay (cwd : Place) (es : List Entry) (d : Disk) : Prop :=
  ∀ e ∈ es, ¬ d.dirs (resolve cwd e.base.localPath) ∧
    ∀ q, Above q (resolve cwd e.base.localPath) → d.Free cwd q ∧ ∀ f ∈ es, resolve cwd f.base.localPath ≠ q

/-- programs that only look at and write to files that are open -/
inductive Plain : Prog → Prop
  | ret (r : Res Unit) : Plain (.ret r)
  | size (path : Bytes) (k : Option Nat → Prog) (h : ∀ b, Plain (k b)) : Plain (.size path k)
  | truncate (path : Bytes) (n : Int) (k : Bool → Prog) (h : ∀ b, Plain (k b)) : Plain (.truncate path n k)
  | write (path : Bytes) (pos : Nat) (data : Bytes) (k : Bool → Prog) (h : ∀ b, Plain (k b)) : Plain (.write path pos data k)

theorem plain_append (path : Bytes) (fuel : Nat) : ∀ (pos : Nat) (left : Int), Plain (appendLoop path fuel pos left) := by
  induction fuel with
  | zero => intro pos left; exact .ret _
  | succ fuel ih =>
    intro pos left
    rw [appendLoop]
    split
    · exact .ret _
    · split
      · refine .write _ _ _ _ fun b => ?_
        cases b with
        | true => exact ih _ _
        | false => exact .ret _
      · split
        · exact .ret _
        · refine .write _ _ _ _ fun b => ?_
          cases b with
          | true => exact ih _ _
          | false => exact .ret _

theorem plain_zeros (path : Bytes) (n : Int) : Plain (AppendZeros path n) := by
  refine .size _ _ fun b => ?_
  cases b with
  | none => exact .ret _
  | some m => exact plain_append _ _ _ _

theorem plain_checkSize (path : Bytes) (n : Int) : Plain (checkSize path n) := by
  refine .size _ _ fun b => ?_
  cases b with
  | none => exact .ret _
  | some m =>
    simp only
    split
    · exact .ret _
    · split
      · exact .truncate _ _ _ fun b => .ret _
      · exact plain_zeros _ _

/-- these work as without directories -/
theorem Plain.lift {sp : Bool} {cwd : Place} {p : Prog} {fs fs' : State} {o : Outcome} (h : Exec sp p fs o fs') :
    Plain p → ∀ dirs, DirExec sp cwd p ⟨fs, dirs⟩ o ⟨fs', dirs⟩ := by
  induction h with
  | ret r fs => intro _ dirs; exact .ret _ _
  | crash p fs => intro _ dirs; exact .crash _ _
  | open_ok => intro hp; cases hp
  | open_fail => intro hp; cases hp
  | mkdir => intro hp; cases hp
  | trunc_ok => intro hp; cases hp
  | trunc_fail => intro hp; cases hp
  | size_ok path k fs fs' o c hc _ ih =>
    intro hp dirs
    cases hp with
    | size _ _ hk => exact .size_ok _ _ _ _ _ c hc (ih (hk _) dirs)
  | size_fail path k fs fs' o _ ih =>
    intro hp dirs
    cases hp with
    | size _ _ hk => exact .size_fail _ _ _ _ _ (ih (hk _) dirs)
  | truncate_ok path n k fs fs' o c hc _ ih =>
    intro hp dirs
    cases hp with
    | truncate _ _ _ hk => exact .truncate_ok _ _ _ _ _ _ c hc (ih (hk _) dirs)
  | truncate_fail path n k fs fs' o _ ih =>
    intro hp dirs
    cases hp with
    | truncate _ _ _ hk => exact .truncate_fail _ _ _ _ _ _ (ih (hk _) dirs)
  | write_ok path pos data k fs fs' o c hc _ ih =>
    intro hp dirs
    cases hp with
    | write _ _ _ _ hk => exact .write_ok _ _ _ _ _ _ _ c hc (ih (hk _) dirs)
  | write_fail path pos data k fs fs' o c j hc _ ih =>
    intro hp dirs
    cases hp with
    | write _ _ _ _ hk => exact .write_fail _ _ _ _ _ _ _ c j hc (ih (hk _) dirs)
  | write_crash path pos data k fs c j hc => intro hp dirs; exact .write_crash _ _ _ _ _ c j hc

/-- a run of `OCAT` without failures -/
theorem ocat_dirs (sp : Bool) (cwd : Place) (path : Bytes) (n : Nat) (d : Disk) (h1 : ¬ d.dirs (resolve cwd path))
    (h2 : ∀ q, Above q (resolve cwd path) → d.Free cwd q) :
    ∃ d', DirExec sp cwd (OCAT path n) d (.done (.ok ())) d' ∧ d'.files = d.files.set path (prepared (old d.files path) n) ∧
      ∀ q, d'.dirs q → d.dirs q ∨ Above q (resolve cwd path) := by
  cases hc : d.files path with
  | some c =>
    have : old d.files path = c := by unfold old; rw [hc]; rfl
    rw [this]
    exact ⟨⟨_, d.dirs⟩, .open_ok _ _ _ _ _ c hc ((plain_checkSize _ _).lift (checkSize_run sp path n c d.files hc) d.dirs), rfl, fun q hq => .inl hq⟩
  | none =>
    have : old d.files path = [] := by unfold old; rw [hc]; rfl
    rw [this]
    have e1 := appendZeros_run sp path n [] (d.files.set path []) (set_get _ _ _)
    have e2 := checkSize_run sp path n ([] ++ List.replicate n 0) ((d.files.set path []).set path ([] ++ List.replicate n 0)) (set_get _ _ _)
    have e3 : prepared ([] ++ List.replicate n 0) n = prepared [] n := prepared_grow [] n n (by simp)
    rw [e3, set_set, set_set] at e2
    rw [set_set] at e1
    refine ⟨⟨_, fun x => d.dirs x ∨ Above x (resolve cwd path)⟩, .open_fail _ _ _ _ _ (.inl hc) ?_, rfl, fun q hq => hq⟩
    simp only [Bool.false_eq_true, if_false]
    refine DirExec.bind (r := .ok ()) (.mkdir_ok _ _ _ _ _ h2 (.trunc_ok _ _ _ _ _ (fun q hq => .inr hq) ?_ ((plain_zeros _ _).lift e1 _)))
      ((plain_checkSize _ _).lift e2 _)
    rintro (h | ⟨r, hr, h⟩)
    · exact h1 h
    · have := congrArg List.length h
      rw [List.length_append] at this
      exact hr (List.length_eq_zero_iff.mp (by omega))

/-- **C88**, exactly: if the operating system does not fail, preparing the files of a torrent succeeds precisely if nothing is in their way. -/
theorem C88_storable_iff_partial (sp : Bool) (cwd : Place) (es : List Entry) (hn : ∀ e ∈ es, 0 ≤ e.base.length) (d : Disk) (ht : Tree cwd d) :
    (∃ d', DirExec sp cwd (OCATAll es) d (.done (.ok ())) d') ↔ NothingInTheWay cwd es d := by
  constructor
  · rintro ⟨d', h⟩ e he
    have hex := ocatAll_exists es h ht
    obtain ⟨ht', hd, hf⟩ := h.keeps ht
    obtain ⟨c, hc⟩ := hex e he
    refine ⟨fun hdir => ht'.excl _ c hc (hd _ hdir), fun q hq => ?_⟩
    have hqd := ht'.files _ c q hc hq
    constructor
    · intro p hp
      cases hfp : d.files p with
      | none => rfl
      | some x =>
        obtain ⟨y, hy⟩ := hf p x hfp
        exact absurd (by rw [hp]; exact hqd) (ht'.excl p y hy)
    · intro f hfm heq
      obtain ⟨x, hx⟩ := hex f hfm
      exact ht'.excl _ x hx (by rw [heq]; exact hqd)
  · intro h
    induction es generalizing d with
    | nil => exact ⟨d, .ret _ _⟩
    | cons e es ih =>
      obtain ⟨h1, h2⟩ := h e (by simp)
      obtain ⟨mid, m1, m2, m3⟩ := ocat_dirs sp cwd e.base.localPath e.base.length.toNat d h1 (fun q hq => (h2 q hq).1)
      obtain ⟨d', hd'⟩ := ih (fun x hx => hn x (by simp [hx])) mid (m1.keeps ht).1 (by
        intro x hx
        obtain ⟨g1, g2⟩ := h x (by simp [hx])
        refine ⟨?_, ?_⟩
        · intro hdir
          rcases m3 _ hdir with hdir | hdir
          · exact g1 hdir
          · exact (h2 _ hdir).2 x (by simp [hx]) rfl
        · intro q hq
          obtain ⟨k1, k2⟩ := g2 q hq
          refine ⟨?_, fun f hf => k2 f (by simp [hf])⟩
          intro p hp
          rw [m2]
          unfold State.set
          rw [if_neg (by rintro rfl; exact k2 e (by simp) hp)]
          exact k1 p hp)
      refine ⟨d', ?_⟩
      rw [OCATAll]
      rw [show ((e.base.length.toNat : Nat) : Int) = e.base.length by have := hn e (by simp); omega] at m1
      exact DirExec.bind (r := .ok ()) m1 hd'

theorem prefix_or {x y : Place} (q r : Place) (h : x ++ y = q ++ r) : (∃ s, x = q ++ s) ∨ ∃ s, s ≠ [] ∧ q = x ++ s := by
  rcases List.append_eq_append_iff.mp h with ⟨s, h1, h2⟩ | ⟨s, h1, h2⟩
  · cases s with
    | nil => exact .inl ⟨[], by simpa using h1.symm⟩
    | cons a s => exact .inr ⟨a :: s, by simp, h1⟩
  · exact .inl ⟨s, h1⟩

/-- **C88**, in terms of the torrent: if there is nothing yet at the torrent's directory and no file on the way to it, and if no path leads out of
that directory, preparing the files succeeds (the operating system permitting) precisely if no file of the torrent is inside of another. -/
theorem C88_torrent_partial (dict : Dict) (wd : Bytes) (hwd : wd ≠ []) (ti : TorInfo) (hl : FromDict dict wd = .ok ti)
    (hm : intAt dict (ascii "length") = none) (hs : ∀ e ∈ ti.flist, Stays 0 (components e.base.torPath)) (hn : ∀ e ∈ ti.flist, 0 ≤ e.base.length)
    (sp : Bool) (cwd : Place) (d : Disk) (ht : Tree cwd d) (dir : Place) (hdir : dir = walk (resolve cwd wd) (components ti.name))
    (hd : ∀ below, ¬ d.dirs (dir ++ below)) (hf : ∀ p c r, d.files p = some c → dir ≠ resolve cwd p ++ r) :
    (∃ d', DirExec sp cwd (OCATAll ti.flist) d (.done (.ok ())) d') ↔
      ∀ e ∈ ti.flist, ∀ f ∈ ti.flist, ¬ Above (walk [] (components e.base.torPath)) (walk [] (components f.base.torPath)) := by
  have hres : ∀ e ∈ ti.flist, resolve cwd e.base.localPath = dir ++ walk [] (components e.base.torPath) := by
    intro x hx
    rw [C34_location dict wd hwd ti hl cwd x hx, multi_steps hm, walk_append, walk_stays _ _ (hs x hx), hdir]
  rw [C88_storable_iff_partial sp cwd ti.flist hn d ht]
  constructor
  · rintro h e he f hf' ⟨r, hr, heq⟩
    refine ((h f hf').2 (resolve cwd e.base.localPath) ⟨r, hr, ?_⟩).2 e he rfl
    rw [hres e he, hres f hf', heq, List.append_assoc]
  · intro h e he
    rw [hres e he]
    refine ⟨hd _, ?_⟩
    rintro q ⟨r, hr, hq⟩
    constructor
    · intro p hp
      cases hfp : d.files p with
      | none => rfl
      | some c =>
        exfalso
        rcases prefix_or _ _ hq with ⟨s, h1⟩ | ⟨s, h1, h2⟩
        · exact hf p c s hfp (by rw [hp]; exact h1)
        · exact hd [] (by rw [List.append_nil]; exact ht.files p c dir hfp ⟨s, h1, by rw [hp]; exact h2⟩)
    · intro f hfm heq
      rw [hres f hfm] at heq
      subst heq
      rw [List.append_assoc] at hq
      exact h f hfm e he ⟨r, hr, (List.append_right_inj _).mp hq⟩

theorem components_name {a : Bytes} (h : (47 : UInt8) ∉ a) : components a = [a] := by
  rw [components_eq]
  induction a with
  | nil => rfl
  | cons c cs ih =>
    simp only [List.mem_cons, not_or] at h
    rw [splitSlash, if_neg (fun e => h.1 e.symm), ih h.2]

/-- **C88** is false: whatever the name, the piece length, the hashes and the lengths, if there are enough hashes a torrent with the files `a`
and `a/b` is accepted; on no disk can it be prepared, so that the client never starts. -/
theorem C88_refuted (name pieces wd : Bytes) (hwd : wd ≠ []) (pl m n : Nat) (hpl : 0 < pl) (a b : Bytes) (ha : Name a) (hb : Name b)
    (h20 : 20 ∣ pieces.length) (hn : needed (m + n) pl ≤ pieces.length / 20) :
    ∃ ti, FromDict (multiInfo name pieces pl [((m : Int), [a]), ((n : Int), [a, b])]) wd = .ok ti ∧
      ∀ (sp : Bool) (cwd : Place) (d : Disk), Tree cwd d → ¬ ∃ d', DirExec sp cwd (OCATAll ti.flist) d (.done (.ok ())) d' := by
  have hne : ∀ f ∈ [((m : Int), [a]), ((n : Int), [a, b])], f.2 ≠ [] := by
    intro f hf
    simp only [List.mem_cons, List.not_mem_nil, or_false] at hf
    rcases hf with rfl | rfl <;> simp
  obtain ⟨ti, h⟩ := (C24_accept_iff_partial name pl hpl pieces
    ([((m : Int), [a]), ((n : Int), [a, b])].map fun f => (⟨f.1, joinSlash f.2, Join (Join wd name) (joinSlash f.2)⟩ : EntryBase)) (by
      intro f hf
      simp only [List.map_cons, List.map_nil, List.mem_cons, List.not_mem_nil, or_false] at hf
      rcases hf with rfl | rfl <;> simp)).mpr ⟨h20, by
        simpa [lens, total] using hn⟩
  refine ⟨ti, by rw [fromDict_multi _ _ _ _ _ hne]; exact h, ?_⟩
  have hload : FromDict (multiInfo name pieces pl [((m : Int), [a]), ((n : Int), [a, b])]) wd = .ok ti := by
    rw [fromDict_multi _ _ _ _ _ hne]; exact h
  obtain ⟨-, -, -, -, -, g6⟩ := newTorInfo_fields h
  obtain ⟨e, f, hef⟩ : ∃ e f, ti.flist = [e, f] := by
    have := congrArg List.length g6
    simp only [List.length_map, List.length_cons, List.length_nil] at this
    match hfl : ti.flist, this with
    | [e, f], _ => exact ⟨e, f, rfl⟩
  rw [hef] at g6
  simp only [List.map_cons, List.map_nil, List.cons.injEq, and_true] at g6
  obtain ⟨ge, gf⟩ := g6
  intro sp cwd d ht hex
  have hnn : ∀ x ∈ ti.flist, 0 ≤ x.base.length := by
    intro x hx
    rw [hef] at hx
    simp only [List.mem_cons, List.not_mem_nil, or_false] at hx
    rcases hx with rfl | rfl
    · rw [ge]; exact Int.natCast_nonneg _
    · rw [gf]; exact Int.natCast_nonneg _
  have hw := (C88_storable_iff_partial sp cwd ti.flist hnn d ht).mp hex
  have hle := C34_location _ wd hwd ti hload cwd e (by rw [hef]; simp)
  have hlf := C34_location _ wd hwd ti hload cwd f (by rw [hef]; simp)
  rw [multi_steps rfl, walk_append, ge] at hle
  rw [multi_steps rfl, walk_append, gf] at hlf
  have ea : components (joinSlash [a]) = [a] := components_name ha.2.2.2
  have eb : components (joinSlash [a, b]) = [a, b] := by
    have h1 := components_name ha.2.2.2
    have h2 := components_name hb.2.2.2
    rw [components_eq] at h1 h2
    rw [components_eq]
    show splitSlash (a ++ 47 :: b) = _
    rw [splitSlash_append', h1, h2]
    rfl
  simp only at hle hlf
  rw [ea, walk_cons, walk_nil, step_name _ (by intro h; rcases h with h | h; exact ha.1 h; exact ha.2.1 h) ha.2.2.1] at hle
  rw [eb, walk_cons, walk_cons, walk_nil, step_name _ (by intro h; rcases h with h | h; exact ha.1 h; exact ha.2.1 h) ha.2.2.1,
    step_name _ (by intro h; rcases h with h | h; exact hb.1 h; exact hb.2.1 h) hb.2.2.1] at hlf
  refine ((hw f (by rw [hef]; simp)).2 (resolve cwd e.base.localPath) ⟨[b], by simp, ?_⟩).2 e (by rw [hef]; simp) rfl
  rw [ge, gf]
  rw [hle, hlf]

/-- the hypotheses of `C88_torrent_partial` are met: the torrent with the files `d/f` and `f`, on a disk with nothing but the root -/
example : ∃ ti, FromDict (multiInfo (ascii "n") (List.replicate 20 1) 4 [(1, [ascii "d", ascii "f"]), (1, [ascii "f"])]) (ascii "/w") = .ok ti ∧
    (∀ e ∈ ti.flist, Stays 0 (components e.base.torPath) ∧ 0 ≤ e.base.length) ∧ ti.flist.length = 2 ∧
    Tree [] ⟨fun _ => none, fun q => q = []⟩ ∧ (∀ below, ¬ (walk (resolve [] (ascii "/w")) (components ti.name) ++ below) = []) ∧
    ∀ e ∈ ti.flist, ∀ f ∈ ti.flist, ¬ Above (walk [] (components e.base.torPath)) (walk [] (components f.base.torPath)) := by
  obtain ⟨ti, h⟩ : ∃ ti, FromDict (multiInfo (ascii "n") (List.replicate 20 1) 4 [(1, [ascii "d", ascii "f"]), (1, [ascii "f"])]) (ascii "/w") = .ok ti :=
    Res.isOk_iff (by decide +kernel)
  have h' := h
  rw [fromDict_multi _ _ _ _ _ (by intro f hf; simp at hf; rcases hf with rfl | rfl <;> simp)] at h'
  obtain ⟨g1, -, -, -, -, g⟩ := newTorInfo_fields h'
  have c1 : components (joinSlash [ascii "d", ascii "f"]) = [ascii "d", ascii "f"] := by decide +kernel
  have c2 : components (joinSlash [ascii "f"]) = [ascii "f"] := by decide +kernel
  have hb : ∀ e ∈ ti.flist, e.base = ⟨1, joinSlash [ascii "d", ascii "f"], Join (Join (ascii "/w") (ascii "n")) (joinSlash [ascii "d", ascii "f"])⟩ ∨
      e.base = ⟨1, joinSlash [ascii "f"], Join (Join (ascii "/w") (ascii "n")) (joinSlash [ascii "f"])⟩ := by
    intro e he
    have : e.base ∈ ti.flist.map Entry.base := List.mem_map_of_mem he
    rw [g] at this
    simpa only [List.map_cons, List.map_nil, List.mem_cons, List.not_mem_nil, or_false] using this
  have hw : ∀ e ∈ ti.flist, walk [] (components e.base.torPath) = [ascii "d", ascii "f"] ∨ walk [] (components e.base.torPath) = [ascii "f"] := by
    intro e he
    rcases hb e he with h | h
    · left; rw [h, c1]; decide +kernel
    · right; rw [h, c2]; decide +kernel
  refine ⟨ti, h, ?_, ?_, ⟨rfl, fun p c q h => (by cases h), ?_, fun p c h => (by cases h)⟩, ?_, ?_⟩
  · intro e he
    rcases hb e he with h | h
    · rw [h, c1]; exact ⟨by simp [Stays, ascii], by decide⟩
    · rw [h, c2]; exact ⟨by simp [Stays, ascii], by decide⟩
  · have := congrArg List.length g
    simpa using this
  · rintro p q rfl ⟨r, hr, h⟩
    have := congrArg List.length h
    rw [List.length_append] at this
    exact absurd (List.length_eq_zero_iff.mp (by simp only [List.length_nil] at this; omega)) hr
  · intro below
    rw [g1, show walk (resolve [] (ascii "/w")) (components (ascii "n")) = [ascii "w", ascii "n"] by decide +kernel]
    simp
  · rintro e he f hf ⟨r, hr, heq⟩
    rcases hw e he with h1 | h1 <;> rcases hw f hf with h2 | h2 <;> rw [h1, h2] at heq
    · exact hr (by simpa using heq)
    · simp at heq
    · simp only [List.cons_append, List.nil_append, List.cons.injEq] at heq
      exact absurd heq.1 (by decide)
    · exact hr (by simpa using heq)

end Verif.DirFS
