import Verif.Spec.Handles
import Verif.Props.FileIO
/-
Property C77: moving and closing the files of a torrent.
-/
set_option autoImplicit false

namespace Verif.Handles
open Verif.HandlesSpec Verif.FS Verif.Files

/-! ## Moves are invisible to reads and writes -/

/-- the same open files with the same contents -/
structure Same (s t : St) : Prop where
  data : s.data = t.data
  handles : s.handles = t.handles
  lfps : s.lfps = t.lfps

theorem Same.lookup {s t : St} (h : Same s t) (p : Bytes) : s.lookup p = t.lookup p := by
  unfold St.lookup; rw [h.lfps]

theorem Same.closeHandle {s t : St} (h : Same s t) (x : Nat) (f : Bool) :
    Same (closeHandle s x f).1 (closeHandle t x f).1 ∧ (Handles.closeHandle s x f).2 = (Handles.closeHandle t x f).2 := by
  unfold Handles.closeHandle
  rw [h.handles]
  split
  · exact ⟨h, rfl⟩
  · split
    · exact ⟨⟨h.data, rfl, h.lfps⟩, rfl⟩
    · exact ⟨h, rfl⟩

theorem Same.closeAll (o : List Nat) : ∀ {s t : St}, Same s t → Same (s.CloseAll o).1 (t.CloseAll o).1 ∧ (s.CloseAll o).2 = (t.CloseAll o).2 := by
  induction o with
  | nil => intro s t h; exact ⟨h, rfl⟩
  | cons x xs ih =>
    intro s t h
    obtain ⟨h1, h2⟩ := h.closeHandle x false
    rw [St.CloseAll, St.CloseAll]
    generalize Handles.closeHandle s x false = a at h1 h2
    generalize Handles.closeHandle t x false = b at h1 h2
    obtain ⟨a1, a2⟩ := a
    obtain ⟨b1, b2⟩ := b
    simp only at h1 h2
    subst h2
    cases a2 with
    | ok _ => exact ih h1
    | err _ => exact ⟨h1, rfl⟩
    | panic => exact ⟨h1, rfl⟩
    | timeout => exact ⟨h1, rfl⟩

theorem move_same (s : St) (a b : Bytes) (f : Bool) : Same (s.Move a b f).1 s := by
  unfold St.Move
  split
  · exact ⟨rfl, rfl, rfl⟩
  · split
    · exact ⟨rfl, rfl, rfl⟩
    · split
      · exact ⟨rfl, rfl, rfl⟩
      · split <;> exact ⟨rfl, rfl, rfl⟩

theorem Same.trans {s t u : St} (h : Same s t) (k : Same t u) : Same s u :=
  ⟨h.data.trans k.data, h.handles.trans k.handles, h.lfps.trans k.lfps⟩

theorem Same.run {s t : St} (h : Same s t) (op : Op) (hm : isMove op = false) (ho : isOcat op = false) :
    Same (op.run s).1 (op.run t).1 ∧ (op.run s).2 = (op.run t).2 := by
  cases op with
  | ocat => cases ho
  | move => cases hm
  | close p f =>
    simp only [Op.run, St.Close]
    rw [h.lookup]
    split
    · exact ⟨h, rfl⟩
    · exact h.closeHandle _ _
  | closeAll o => exact Same.closeAll o h
  | read p o n f =>
    simp only [Op.run, St.read]
    rw [h.lookup, h.handles, h.data]
    exact ⟨h, rfl⟩
  | write p o d f =>
    simp only [Op.run, St.write]
    rw [h.lookup, h.handles, h.data]
    split
    · exact ⟨h, rfl⟩
    · split
      · exact ⟨h, rfl⟩
      · split
        · exact ⟨h, rfl⟩
        · split
          · exact ⟨h, rfl⟩
          · split
            · exact ⟨h, rfl⟩
            · split <;> exact ⟨⟨rfl, rfl, h.lfps⟩, rfl⟩

theorem runAll_same (ops : List Op) (ho : ∀ op ∈ ops, isOcat op = false) : ∀ {s t : St}, Same s t →
    Same (runAll s ops).1 (runAll t (ops.filter fun op => !isMove op)).1 ∧
      answers ops (runAll s ops).2 = (runAll t (ops.filter fun op => !isMove op)).2 := by
  induction ops with
  | nil => intro s t h; exact ⟨h, rfl⟩
  | cons op ops ih =>
    intro s t h
    cases hm : isMove op with
    | true =>
      rw [List.filter_cons_of_neg (by simp [hm])]
      have hs : Same (op.run s).1 t := by
        cases op with
        | move a b f => exact (move_same s a b f).trans h
        | _ => cases hm
      obtain ⟨h1, h2⟩ := ih (fun o ho' => ho o (.tail _ ho')) hs
      refine ⟨h1, ?_⟩
      rw [runAll, answers, if_pos hm]
      exact h2
    | false =>
      rw [List.filter_cons_of_pos (by simp [hm])]
      obtain ⟨h1, h2⟩ := h.run op hm (ho op (.head _))
      obtain ⟨h3, h4⟩ := ih (fun o ho' => ho o (.tail _ ho')) h1
      refine ⟨h3, ?_⟩
      rw [runAll, answers, if_neg (by simp [hm]), runAll, h2, h4]

/-- **C77**: moves are invisible.  In every sequence of calls without `OCAT`, all other calls give the same answers, and leave the same
data in the open files, as if the calls of `Move` were left out. -/
theorem C77_moves_invisible (s : St) (ops : List Op) (ho : ∀ op ∈ ops, isOcat op = false) :
    answers ops (runAll s ops).2 = (runAll s (ops.filter fun op => !isMove op)).2 ∧
      view (runAll s ops).1 = view (runAll s (ops.filter fun op => !isMove op)).1 := by
  obtain ⟨h1, h2⟩ := runAll_same ops ho (Same.mk (s := s) (t := s) rfl rfl rfl)
  refine ⟨h2, ?_⟩
  funext p
  unfold view St.handle
  rw [h1.lookup, h1.handles, h1.data]

/-- a small disk with one file of two bytes called `old` -/
def exDisk : St := NewFileIO (fun p => if p = ascii "old" then some 0 else none) (fun _ => [5, 6]) 1

example : (runAll exDisk [.ocat (ascii "a") 3 false, .write (ascii "a") 1 [7, 8] none, .move (ascii "a") (ascii "b") false,
    .read (ascii "a") 0 3 false, .write (ascii "a") 0 [9] none, .close (ascii "a") false, .read (ascii "a") 0 3 false]).2 =
    [.ok [], .ok [], .ok [], .ok [0, 7, 8], .ok [], .ok [], .err .os] := by decide +kernel

/-- **C77**: when a `Move` succeeds, and what is found under the names afterwards. -/
theorem C77_move (s : St) (a b : Bytes) (fails : Bool) :
    ((s.Move a b fails).2 = .ok [] ↔ (s.lookup a).isSome = true ∧ (file s a).isSome = true ∧ fails = false) ∧
    ((s.Move a b fails).2 = .ok [] → file (s.Move a b fails).1 b = file s a ∧
      (∀ p, p ≠ a → p ≠ b → file (s.Move a b fails).1 p = file s p) ∧
      (s.dir a ≠ s.dir b → file (s.Move a b fails).1 a = none)) ∧
    ((s.Move a b fails).2 ≠ .ok [] → (s.Move a b fails).1 = s ∧ ∃ e, (s.Move a b fails).2 = .err e) := by
  unfold St.Move
  cases hl : s.lookup a with
  | none => simp
  | some h =>
    cases fails with
    | true => simp
    | false =>
      cases hd : s.dir a with
      | none => simp [file, hd]
      | some i =>
        by_cases hb : s.dir b = some i
        · simp [file, hd, hb]
        · simp only [Bool.false_eq_true, if_false, if_neg hb]
          refine ⟨by simp [file, hd], fun _ => ⟨by simp [file, hd], fun p h1 h2 => by simp [file, h1, h2], fun _ => ?_⟩, fun h => absurd rfl h⟩
          have hab : a ≠ b := by rintro rfl; exact hb hd
          simp [file, hab]

/-! ## A moved file cannot be moved again -/

/-- the directory and the map afterwards -/
theorem run_dir (s : St) (op : Op) (ho : isOcat op = false) :
    (op.run s).1.lfps = s.lfps ∧ (isMove op = false → (op.run s).1.dir = s.dir) := by
  have hc : ∀ (s : St) x f, (closeHandle s x f).1.lfps = s.lfps ∧ (closeHandle s x f).1.dir = s.dir := by
    intro s x f
    unfold closeHandle
    split
    · exact ⟨rfl, rfl⟩
    · split <;> exact ⟨rfl, rfl⟩
  have hca : ∀ (o : List Nat) (s : St), (s.CloseAll o).1.lfps = s.lfps ∧ (s.CloseAll o).1.dir = s.dir := by
    intro o
    induction o with
    | nil => intro s; exact ⟨rfl, rfl⟩
    | cons x xs ih =>
      intro s
      rw [St.CloseAll]
      have := hc s x false
      generalize closeHandle s x false = a at this
      obtain ⟨a1, a2⟩ := a
      cases a2 with
      | ok _ => exact ⟨(ih a1).1.trans this.1, (ih a1).2.trans this.2⟩
      | err _ => exact this
      | panic => exact this
      | timeout => exact this
  cases op with
  | ocat => cases ho
  | move a b f => exact ⟨(move_same s a b f).lfps, fun h => by cases h⟩
  | close p f =>
    simp only [Op.run, St.Close]
    split
    · exact ⟨rfl, fun _ => rfl⟩
    · exact ⟨(hc _ _ _).1, fun _ => (hc _ _ _).2⟩
  | closeAll o => exact ⟨(hca o s).1, fun _ => (hca o s).2⟩
  | read p o n f => exact ⟨rfl, fun _ => rfl⟩
  | write p o d f =>
    simp only [Op.run, St.write]
    split
    · exact ⟨rfl, fun _ => rfl⟩
    · split
      · exact ⟨rfl, fun _ => rfl⟩
      · split
        · exact ⟨rfl, fun _ => rfl⟩
        · split
          · exact ⟨rfl, fun _ => rfl⟩
          · split
            · exact ⟨rfl, fun _ => rfl⟩
            · split <;> exact ⟨rfl, fun _ => rfl⟩

theorem runAll_lfps (ops : List Op) (ho : ∀ op ∈ ops, isOcat op = false) : ∀ s : St, (runAll s ops).1.lfps = s.lfps := by
  induction ops with
  | nil => intro s; rfl
  | cons op ops ih =>
    intro s
    rw [runAll, ih (fun o h => ho o (.tail _ h)), (run_dir s op (ho op (.head _))).1]

/-- moving cannot make a name lead anywhere unless it is the target -/
theorem move_dir (s : St) (x y : Bytes) (f : Bool) (p : Bytes) (hp : p ≠ y) :
    (s.Move x y f).1.dir p = s.dir p ∨ (s.Move x y f).1.dir p = none := by
  unfold St.Move
  split
  · exact .inl rfl
  · split
    · exact .inl rfl
    · split
      · exact .inl rfl
      · split
        · exact .inl rfl
        · simp only [if_neg hp]
          split
          · exact .inr rfl
          · exact .inl rfl

/-- C77 refuted: a moved file can neither be moved again nor closed under its new name, and not be moved under its old name, whatever
is called in between (unless something is put under the old name again). -/
theorem C77_refuted_move_again (s : St) (a b : Bytes) (f : Bool) (hok : (s.Move a b f).2 = .ok []) (hb : s.lookup b = none)
    (hd : s.dir a ≠ s.dir b) (ops : List Op) (ho : ∀ op ∈ ops, isOcat op = false) (ha : ∀ x g, .move x a g ∉ ops) (c : Bytes) (g : Bool) :
    ((runAll (s.Move a b f).1 ops).1.Move b c g).2 = .err .path ∧ ((runAll (s.Move a b f).1 ops).1.Close b g).2 = .err .path ∧
      ((runAll (s.Move a b f).1 ops).1.Move a c g).2 = .err .os := by
  have hl : (runAll (s.Move a b f).1 ops).1.lfps = s.lfps := by
    rw [runAll_lfps ops ho, (move_same s a b f).lfps]
  have hlb : (runAll (s.Move a b f).1 ops).1.lookup b = none := by
    unfold St.lookup at hb ⊢; rw [hl]; exact hb
  have hla : ∃ h, (runAll (s.Move a b f).1 ops).1.lookup a = some h := by
    have := ((C77_move s a b f).1.mp hok).1
    rw [Option.isSome_iff_exists] at this
    obtain ⟨h, hh⟩ := this
    exact ⟨h, by unfold St.lookup at hh ⊢; rw [hl]; exact hh⟩
  have hda : (s.Move a b f).1.dir a = none := by
    have := ((C77_move s a b f).2.1 hok).2.2 hd
    unfold file at this
    rw [Option.map_eq_none_iff] at this
    exact this
  have hdir : ∀ (ops : List Op) (t : St), (∀ op ∈ ops, isOcat op = false) → (∀ x g, .move x a g ∉ ops) → t.dir a = none →
      (runAll t ops).1.dir a = none := by
    intro ops
    induction ops with
    | nil => intro t _ _ h; exact h
    | cons op ops ih =>
      intro t h1 h2 h3
      rw [runAll]
      refine ih _ (fun o h => h1 o (.tail _ h)) (fun x g h => h2 x g (.tail _ h)) ?_
      cases hm : isMove op with
      | false => rw [(run_dir t op (h1 op (.head _))).2 hm]; exact h3
      | true =>
        cases op with
        | move x y g =>
          have hy : a ≠ y := by rintro rfl; exact h2 x g (.head _)
          rcases move_dir t x y g a hy with h | h
          · exact h.trans h3
          · exact h
        | _ => cases hm
  have hd' := hdir ops _ ho ha hda
  obtain ⟨h, hla⟩ := hla
  refine ⟨by rw [St.Move, hlb], by rw [St.Close, hlb], ?_⟩
  rw [St.Move, hla]
  cases g with
  | true => rfl
  | false => simp only [Bool.false_eq_true, if_false, hd']

example : (runAll exDisk [.ocat (ascii "a") 1 false, .move (ascii "a") (ascii "b") false, .move (ascii "b") (ascii "c") false,
    .close (ascii "b") false, .move (ascii "a") (ascii "c") false]).2 = [.ok [], .ok [], .err .path, .err .path, .err .os] := by decide +kernel

/-- C77 refuted: if a file is moved to the path of another open file, that other file is gone from the disk although it can be written and
read as before: no name leads to it, whatever is called (except `OCAT`). -/
theorem C77_refuted_target_lost (s : St) (a b : Bytes) (f : Bool) (hok : (s.Move a b f).2 = .ok []) (x : Handle) (hx : s.handle b = some x)
    (hopen : x.isOpen = true) (hne : s.dir a ≠ some x.inode) (hsole : ∀ p, s.dir p = some x.inode → p = b)
    (ops : List Op) (ho : ∀ op ∈ ops, isOcat op = false) :
    (∀ p, (runAll (s.Move a b f).1 ops).1.dir p ≠ some x.inode) ∧
      ∀ (d : Bytes), d ≠ [] → ((s.Move a b f).1.write b 0 d none).2 = .ok [] := by
  have hstart : ∀ p, (s.Move a b f).1.dir p ≠ some x.inode := by
    intro p
    unfold St.Move at hok ⊢
    cases hl : s.lookup a with
    | none => simp [hl] at hok
    | some h =>
      simp only [hl] at hok ⊢
      cases f with
      | true => simp at hok
      | false =>
        cases hd : s.dir a with
        | none => simp [hd] at hok
        | some i =>
          simp only [Bool.false_eq_true, if_false]
          rw [hd] at hne
          by_cases hb : s.dir b = some i
          · rw [if_pos hb]
            intro hp
            have := hsole p hp
            rw [this, hb] at hp
            exact hne hp
          · rw [if_neg hb]
            simp only
            split
            · exact hne
            · split
              · simp
              · intro hp
                exact absurd (hsole p hp) ‹_›
  refine ⟨?_, ?_⟩
  · have key : ∀ (ops : List Op) (t : St), (∀ op ∈ ops, isOcat op = false) → (∀ p, t.dir p ≠ some x.inode) →
        ∀ p, (runAll t ops).1.dir p ≠ some x.inode := by
      intro ops
      induction ops with
      | nil => intro t _ h; exact h
      | cons op ops ih =>
        intro t h1 h2
        rw [runAll]
        refine ih _ (fun o h => h1 o (.tail _ h)) ?_
        cases hm : isMove op with
        | false => rw [(run_dir t op (h1 op (.head _))).2 hm]; exact h2
        | true =>
          cases op with
          | move y z g =>
            intro p
            simp only [Op.run]
            unfold St.Move
            split
            · exact h2 p
            · split
              · exact h2 p
              · split
                · exact h2 p
                · rename_i i hi
                  split
                  · exact h2 p
                  · simp only
                    split
                    · rw [← hi]; exact h2 y
                    · split
                      · simp
                      · exact h2 p
          | _ => cases hm
    exact key ops _ ho hstart
  · intro d hd
    have hs := move_same s a b f
    have hx' : (s.Move a b f).1.handle b = some x := by
      unfold St.handle at hx ⊢
      rw [hs.lookup, hs.handles]
      exact hx
    unfold St.handle at hx'
    rw [Option.bind_eq_some_iff] at hx'
    obtain ⟨h, h1, h2⟩ := hx'
    rw [St.write, h1]
    simp [h2, hd, hopen]

/-- two files, the first is moved over the second: what is written to the second is read back, but is in no file -/
example : (runAll exDisk [.ocat (ascii "a") 1 false, .ocat (ascii "b") 1 false, .move (ascii "a") (ascii "b") false,
    .write (ascii "b") 0 [7] none, .read (ascii "b") 0 1 false]).2 = [.ok [], .ok [], .ok [], .ok [], .ok [7]] ∧
    file (runAll exDisk [.ocat (ascii "a") 1 false, .ocat (ascii "b") 1 false, .move (ascii "a") (ascii "b") false,
      .write (ascii "b") 0 [7] none]).1 (ascii "b") = some [0] := by decide +kernel

/-! ## Closing -/

theorem closeHandle_get (s : St) (x : Nat) (fl : Bool) (h : Nat) (f : Handle) (hf : s.handles[h]? = some f) :
    (closeHandle s x fl).1.handles[h]? = some (if h = x then { f with isOpen := false } else f) := by
  unfold closeHandle
  by_cases hx : h = x
  · subst hx
    simp only [hf, if_true]
    obtain ⟨i, o⟩ := f
    cases o with
    | true =>
      have hlt := (List.getElem?_eq_some_iff.mp hf).1
      simp [hlt]
    | false => simpa using hf
  · rw [if_neg hx]
    split
    · exact hf
    · split
      · simp only [List.getElem?_set]; rw [if_neg (Ne.symm hx)]; exact hf
      · exact hf

/-- after `CloseAll` a handle is as before, or it was in the order and is closed -/
theorem closeAll_get (o : List Nat) : ∀ (s : St) (h : Nat) (f : Handle), s.handles[h]? = some f →
    (s.CloseAll o).1.handles[h]? = some f ∨ (h ∈ o ∧ (s.CloseAll o).1.handles[h]? = some { f with isOpen := false }) := by
  induction o with
  | nil => intro s h f hf; exact .inl hf
  | cons x xs ih =>
    intro s h f hf
    have hg := closeHandle_get s x false h f hf
    rw [St.CloseAll]
    generalize closeHandle s x false = a at hg
    obtain ⟨a1, a2⟩ := a
    simp only at hg
    have stop : a1.handles[h]? = some f ∨ (h ∈ x :: xs ∧ a1.handles[h]? = some { f with isOpen := false }) := by
      by_cases hx : h = x
      · rw [if_pos hx] at hg
        exact .inr ⟨by simp [hx], hg⟩
      · rw [if_neg hx] at hg
        exact .inl hg
    cases a2 with
    | ok _ =>
      simp only
      rcases ih a1 h _ hg with h1 | ⟨h1, h2⟩
      · by_cases hx : h = x
        · rw [if_pos hx] at h1
          exact .inr ⟨by simp [hx], h1⟩
        · rw [if_neg hx] at h1
          exact .inl h1
      · refine .inr ⟨.tail _ h1, ?_⟩
        split at h2 <;> exact h2
    | err _ => exact stop
    | panic => exact stop
    | timeout => exact stop

/-- what a call does to a handle: nothing, or it closes it -/
theorem run_get (s : St) (op : Op) (h : Nat) (f : Handle) (hf : s.handles[h]? = some f) :
    (op.run s).1.handles[h]? = some f ∨ (op.run s).1.handles[h]? = some { f with isOpen := false } := by
  have happ : ∀ g, (s.handles ++ [g])[h]? = some f := fun g => by
    rw [List.getElem?_append_left (List.getElem?_eq_some_iff.mp hf).1]; exact hf
  cases op with
  | ocat p n fl =>
    simp only [Op.run, St.OCAT]
    split
    · exact .inl hf
    · split
      · exact .inl (happ _)
      · exact .inl (happ _)
  | move a b fl => simp only [Op.run]; rw [(move_same s a b fl).handles]; exact .inl hf
  | close p fl =>
    simp only [Op.run, St.Close]
    split
    · exact .inl hf
    · rename_i x _
      have := closeHandle_get s x fl h f hf
      by_cases hx : h = x
      · rw [if_pos hx] at this; exact .inr this
      · rw [if_neg hx] at this; exact .inl this
  | closeAll o =>
    rcases closeAll_get o s h f hf with h1 | ⟨-, h1⟩
    · exact .inl h1
    · exact .inr h1
  | read p o n fl => exact .inl hf
  | write p o d fl =>
    simp only [Op.run, St.write]
    split
    · exact .inl hf
    · split
      · exact .inl hf
      · split
        · exact .inl hf
        · split
          · exact .inl hf
          · split
            · exact .inl hf
            · split <;> exact .inl hf

theorem lookup_setKey (s : St) (dir : Bytes → Option Nat) (data : Nat → Bytes) (u : Nat) (hs : List Handle) (path : Bytes) (x : Nat) (p : Bytes) :
    St.lookup ⟨dir, data, u, hs, setKey s.lfps path x⟩ p = if p = path then some x else s.lookup p := by
  unfold St.lookup setKey
  simp only [List.find?_cons]
  by_cases hp : p = path
  · simp [hp]
  · rw [if_neg hp]
    have : (path == p) = false := by simp [Ne.symm hp]
    rw [this]
    simp only
    congr 1
    rw [List.find?_filter]
    congr 1
    funext e
    by_cases he : e.1 = p
    · simp [he, hp]
    · simp [he]

/-- the map afterwards -/
theorem run_lookup (s : St) (op : Op) (p : Bytes) (hp : ∀ n f, op ≠ .ocat p n f) : (op.run s).1.lookup p = s.lookup p := by
  cases ho : isOcat op with
  | false => unfold St.lookup; rw [(run_dir s op ho).1]
  | true =>
    cases op with
    | ocat q n f =>
      have hq : p ≠ q := by rintro rfl; exact hp n f rfl
      simp only [Op.run, St.OCAT]
      split
      · rfl
      · split
        · rw [lookup_setKey, if_neg hq]
        · rw [lookup_setKey, if_neg hq]
    | _ => cases ho

/-- the map is in order: no path and no handle twice, and all handles exist -/
structure Wf (s : St) : Prop where
  keys : (s.lfps.map Prod.fst).Nodup
  vals : (s.lfps.map Prod.snd).Nodup
  lt : ∀ e ∈ s.lfps, e.2 < s.handles.length

theorem closeHandle_length (s : St) (x : Nat) (f : Bool) : (closeHandle s x f).1.handles.length = s.handles.length := by
  unfold closeHandle
  split
  · rfl
  · split
    · simp
    · rfl

theorem closeAll_length (o : List Nat) : ∀ s : St, (s.CloseAll o).1.handles.length = s.handles.length := by
  induction o with
  | nil => intro s; rfl
  | cons x xs ih =>
    intro s
    rw [St.CloseAll]
    have := closeHandle_length s x false
    generalize closeHandle s x false = a at this
    obtain ⟨a1, a2⟩ := a
    cases a2 with
    | ok _ => exact (ih a1).trans this
    | err _ => exact this
    | panic => exact this
    | timeout => exact this

theorem run_length (s : St) (op : Op) (ho : isOcat op = false) : (op.run s).1.handles.length = s.handles.length := by
  cases op with
  | ocat => cases ho
  | move a b f => simp only [Op.run]; rw [(move_same s a b f).handles]
  | close p f =>
    simp only [Op.run, St.Close]
    split
    · rfl
    · exact closeHandle_length _ _ _
  | closeAll o => exact closeAll_length o s
  | read p o n f => rfl
  | write p o d f =>
    simp only [Op.run, St.write]
    split
    · rfl
    · split
      · rfl
      · split
        · rfl
        · split
          · rfl
          · split
            · rfl
            · split <;> rfl

theorem wf_setKey {s : St} (h : Wf s) (dir : Bytes → Option Nat) (data : Nat → Bytes) (u : Nat) (g : Handle) (path : Bytes) :
    Wf ⟨dir, data, u, s.handles ++ [g], setKey s.lfps path s.handles.length⟩ := by
  have hsub : (s.lfps.filter fun e => e.1 != path).Sublist s.lfps := List.filter_sublist
  refine ⟨?_, ?_, ?_⟩
  · simp only [setKey, List.map_cons, List.nodup_cons]
    refine ⟨?_, h.keys.sublist (hsub.map _)⟩
    intro hm
    rw [List.mem_map] at hm
    obtain ⟨e, h1, h2⟩ := hm
    rw [List.mem_filter] at h1
    simp [h2] at h1
  · simp only [setKey, List.map_cons, List.nodup_cons]
    refine ⟨?_, h.vals.sublist (hsub.map _)⟩
    intro hm
    rw [List.mem_map] at hm
    obtain ⟨e, h1, h2⟩ := hm
    have := h.lt e (hsub.subset h1)
    omega
  · intro e he
    simp only [setKey, List.mem_cons] at he
    simp only [List.length_append, List.length_cons, List.length_nil]
    rcases he with rfl | he
    · simp
    · have := h.lt e (hsub.subset he)
      omega

theorem Wf.run {s : St} (h : Wf s) (op : Op) : Wf (op.run s).1 := by
  cases ho : isOcat op with
  | false =>
    have h1 := (run_dir s op ho).1
    have h2 := run_length s op ho
    exact ⟨by rw [h1]; exact h.keys, by rw [h1]; exact h.vals, by rw [h1, h2]; exact h.lt⟩
  | true =>
    cases op with
    | ocat q n f =>
      simp only [Op.run, St.OCAT]
      split
      · exact h
      · split
        · exact wf_setKey h _ _ _ _ _
        · exact wf_setKey h _ _ _ _ _
    | _ => cases ho

theorem Wf.runAll (ops : List Op) : ∀ {s : St}, Wf s → Wf (runAll s ops).1 := by
  induction ops with
  | nil => intro s h; exact h
  | cons op ops ih => intro s h; rw [Handles.runAll]; exact ih (h.run op)

theorem reached_wf {s : St} (h : Reached s) : Wf s := by
  obtain ⟨dir, data, used, ops, -, rfl⟩ := h
  exact Wf.runAll ops ⟨List.nodup_nil, List.nodup_nil, by simp [NewFileIO]⟩

theorem lookup_mem {s : St} {p : Bytes} {h : Nat} (hl : s.lookup p = some h) : (p, h) ∈ s.lfps := by
  unfold St.lookup at hl
  rw [Option.map_eq_some_iff] at hl
  obtain ⟨e, h1, h2⟩ := hl
  have h3 := List.find?_some h1
  have h4 := List.mem_of_find?_eq_some h1
  simp only [beq_iff_eq] at h3
  obtain ⟨a, b⟩ := e
  simp only at h2 h3
  subst h2 h3
  exact h4

theorem Wf.handle {s : St} (hw : Wf s) {p : Bytes} {h : Nat} (hl : s.lookup p = some h) : ∃ f, s.handles[h]? = some f :=
  ⟨_, List.getElem?_eq_getElem (hw.lt _ (lookup_mem hl))⟩

theorem runAll_lookup (ops : List Op) (p : Bytes) (hp : ∀ n f, .ocat p n f ∉ ops) : ∀ s : St, (runAll s ops).1.lookup p = s.lookup p := by
  induction ops with
  | nil => intro s; rfl
  | cons op ops ih =>
    intro s
    rw [runAll, ih (fun n f h => hp n f (.tail _ h)), run_lookup s op p (by rintro n f rfl; exact hp n f (.head _))]

theorem runAll_closed (ops : List Op) (h : Nat) (f : Handle) (hc : f.isOpen = false) : ∀ s : St, s.handles[h]? = some f → (runAll s ops).1.handles[h]? = some f := by
  induction ops with
  | nil => intro s hf; exact hf
  | cons op ops ih =>
    intro s hf
    rw [runAll]
    refine ih _ ?_
    rcases run_get s op h f hf with h1 | h1
    · exact h1
    · rw [h1]
      obtain ⟨i, o⟩ := f
      simp only at hc
      rw [hc]

/-- **C77**: after `Close`, with success or not, every read and every write under the path is refused and changes nothing, and a further
`Close` is an error, whatever is called in between, until `OCAT` is called for the path. -/
theorem C77_close (s : St) (hr : Reached s) (p : Bytes) (hk : (s.lookup p).isSome = true) (fl : Bool) (ops : List Op)
    (hp : ∀ n f, .ocat p n f ∉ ops) :
    (∀ off n f, n ≠ 0 → (runAll (s.Close p fl).1 ops).1.read p off n f = .err .os) ∧
    (∀ off d f, d ≠ [] → (runAll (s.Close p fl).1 ops).1.write p off d f = ((runAll (s.Close p fl).1 ops).1, .err .os)) ∧
    ∀ f, (runAll (s.Close p fl).1 ops).1.Close p f = ((runAll (s.Close p fl).1 ops).1, .err .os) := by
  rw [Option.isSome_iff_exists] at hk
  obtain ⟨h, hl⟩ := hk
  obtain ⟨f, hf⟩ := (reached_wf hr).handle hl
  have hl' : (runAll (s.Close p fl).1 ops).1.lookup p = some h := by
    rw [runAll_lookup ops p hp, ← hl]
    exact run_lookup s (.close p fl) p (by simp)
  have hc : (s.Close p fl).1.handles[h]? = some { f with isOpen := false } := by
    rw [St.Close, hl]
    have := closeHandle_get s h fl h f hf
    rw [if_pos rfl] at this
    exact this
  have hf' := runAll_closed ops h { f with isOpen := false } rfl _ hc
  refine ⟨?_, ?_, ?_⟩
  · intro off n g hn
    rw [St.read, hl']
    simp only [hf', hn]
    simp
  · intro off d g hd
    rw [St.write, hl']
    simp only [hf', hd]
    simp
  · intro g
    rw [St.Close, hl']
    simp only [closeHandle, hf']
    simp

/-- **C77**, when `Close` succeeds, exactly: if there is an open file under the path and the system call succeeds.  Otherwise it is an error; never does it stop the program. -/
theorem C77_close_ok (s : St) (hr : Reached s) (p : Bytes) (fl : Bool) :
    ((s.Close p fl).2 = .ok [] ↔ fl = false ∧ ∃ h, s.lookup p = some h ∧ Open s h) ∧
    ((s.Close p fl).2 ≠ .ok [] → ∃ e, (s.Close p fl).2 = .err e) := by
  unfold St.Close
  cases hl : s.lookup p with
  | none => simp
  | some h =>
    obtain ⟨f, hf⟩ := (reached_wf hr).handle hl
    simp only [closeHandle, hf, Open]
    cases ho : f.isOpen <;> cases fl <;> simp [ho, hf]

example : Reached (runAll exDisk [.ocat (ascii "old") 4 false]).1 ∧ ((runAll exDisk [.ocat (ascii "old") 4 false]).1.lookup (ascii "old")).isSome = true ∧
    (runAll exDisk [.ocat (ascii "old") 4 false]).1.read (ascii "old") 0 4 false = .ok [5, 6, 0, 0] := by
  refine ⟨⟨_, _, 1, [.ocat (ascii "old") 4 false], ?_, rfl⟩, by decide +kernel, by decide +kernel⟩
  intro p i h
  split at h
  · cases h; decide
  · cases h

/-- **C77** (partial: if no file was closed before).  `CloseAll` succeeds and closes every file, in whatever order the map is traversed. -/
theorem C77_closeAll_partial (s : St) (hr : Reached s) (ho : ∀ e ∈ s.lfps, Open s e.2) (order : List Nat) (hp : order.Perm (s.lfps.map Prod.snd)) :
    (s.CloseAll order).2 = .ok [] ∧ ∀ e ∈ s.lfps, ¬ Open (s.CloseAll order).1 e.2 := by
  have hnd : order.Nodup := hp.nodup_iff.mpr (reached_wf hr).vals
  have hop : ∀ h ∈ order, Open s h := by
    intro h hh
    have := hp.mem_iff.mp hh
    rw [List.mem_map] at this
    obtain ⟨e, h1, rfl⟩ := this
    exact ho e h1
  have key : ∀ (o : List Nat) (t : St), o.Nodup → (∀ h ∈ o, Open t h) → (t.CloseAll o).2 = .ok [] ∧ ∀ h ∈ o, ¬ Open (t.CloseAll o).1 h := by
    intro o
    induction o with
    | nil => intro t _ _; exact ⟨rfl, by simp⟩
    | cons x xs ih =>
      intro t h1 h2
      rw [List.nodup_cons] at h1
      obtain ⟨f, hf, hfo⟩ := h2 x (.head _)
      have hch : closeHandle t x false = ({ t with handles := t.handles.set x { f with isOpen := false } }, .ok []) := by
        unfold closeHandle
        simp [hf, hfo]
      have hg := closeHandle_get t x false x f hf
      rw [hch, if_pos rfl] at hg
      rw [St.CloseAll, hch]
      simp only
      obtain ⟨i1, i2⟩ := ih { t with handles := t.handles.set x { f with isOpen := false } } h1.2 (by
        intro h hh
        obtain ⟨g, hg1, hg2⟩ := h2 h (.tail _ hh)
        have hne : x ≠ h := by rintro rfl; exact h1.1 hh
        exact ⟨g, by simp only [List.getElem?_set]; rw [if_neg hne]; exact hg1, hg2⟩)
      refine ⟨i1, ?_⟩
      intro h hh
      rcases List.mem_cons.mp hh with rfl | hh
      · rintro ⟨g, hg1, hg2⟩
        rcases closeAll_get xs _ h _ hg with k | ⟨-, k⟩
        · rw [k] at hg1; cases hg1; cases hg2
        · rw [k] at hg1; cases hg1; cases hg2
      · exact i2 h hh
  obtain ⟨h1, h2⟩ := key order s hnd hop
  refine ⟨h1, fun e he => h2 e.2 (hp.mem_iff.mpr (List.mem_map_of_mem he))⟩

/-- C77 refuted: once a single file has been closed, `CloseAll` may close nothing at all, however many other files are open, and however
often it is called. -/
theorem C77_refuted_closeAll (s : St) (hr : Reached s) (e : Bytes × Nat) (he : e ∈ s.lfps) (hc : ¬ Open s e.2) :
    ∃ order, order.Perm (s.lfps.map Prod.snd) ∧ s.CloseAll order = (s, .err .os) := by
  have hm : e.2 ∈ s.lfps.map Prod.snd := List.mem_map_of_mem he
  refine ⟨e.2 :: (s.lfps.map Prod.snd).erase e.2, (List.perm_cons_erase hm).symm, ?_⟩
  have hlt := (reached_wf hr).lt e he
  have hf : s.handles[e.2]? = some s.handles[e.2] := List.getElem?_eq_getElem hlt
  have hcl : s.handles[e.2].isOpen = false := by
    cases h : s.handles[e.2].isOpen with
    | false => rfl
    | true => exact absurd ⟨_, hf, h⟩ hc
  have : closeHandle s e.2 false = (s, .err .os) := by
    unfold closeHandle
    simp [hf, hcl]
  rw [St.CloseAll, this]

/-- two files, the second closed: one order closes the first, the other closes nothing -/
example : (runAll exDisk [.ocat (ascii "a") 1 false, .ocat (ascii "b") 1 false, .close (ascii "b") false, .closeAll [1, 0], .closeAll [1, 0],
    .read (ascii "a") 0 1 false, .closeAll [0, 1], .read (ascii "a") 0 1 false]).2 =
    [.ok [], .ok [], .ok [], .err .os, .err .os, .ok [0], .err .os, .err .os] := by decide +kernel

/-- C77 refuted: if `OCAT` is called again for an open path, the first handle stays open for ever, whatever is called. -/
theorem C77_refuted_leak (s : St) (hr : Reached s) (p : Bytes) (h : Nat) (hl : s.lookup p = some h) (ho : Open s h) (n : Nat)
    (ops : List Op) (hp : Proper (s.OCAT p n false).1 ops) : Open (runAll (s.OCAT p n false).1 ops).1 h := by
  have hw := (reached_wf hr)
  have hnot : ∀ (dir : Bytes → Option Nat) (data : Nat → Bytes) (u : Nat) (g : Handle),
      h ∉ (St.lfps ⟨dir, data, u, s.handles ++ [g], setKey s.lfps p s.handles.length⟩).map Prod.snd := by
    intro dir data u g hm
    simp only [setKey, List.map_cons, List.mem_cons, List.mem_map, List.mem_filter] at hm
    have hlt := hw.lt _ (lookup_mem hl)
    simp only at hlt
    rcases hm with hm | ⟨e, ⟨h1, h2⟩, h3⟩
    · omega
    · have : e = (p, h) := by
        have hvals := hw.vals
        have hpe : ∀ (l : List (Bytes × Nat)), (l.map Prod.snd).Nodup → ∀ a ∈ l, ∀ b ∈ l, a.2 = b.2 → a = b := by
          intro l
          induction l with
          | nil => intro _ a ha; cases ha
          | cons x xs ih =>
            intro hn a ha b hb hab
            rw [List.map_cons, List.nodup_cons] at hn
            rcases List.mem_cons.mp ha with ea | ha'
            · rcases List.mem_cons.mp hb with eb | hb'
              · rw [ea, eb]
              · exact absurd (by rw [← ea, hab]; exact List.mem_map_of_mem hb') hn.1
            · rcases List.mem_cons.mp hb with eb | hb'
              · exact absurd (by rw [← eb, ← hab]; exact List.mem_map_of_mem ha') hn.1
              · exact ih hn.2 a ha' b hb' hab
        exact hpe _ hvals e h1 (p, h) (lookup_mem hl) h3
      rw [this] at h2
      simp at h2
  obtain ⟨f, hf, hfo⟩ := ho
  have hstart : (h ∉ (s.OCAT p n false).1.lfps.map Prod.snd) ∧ (s.OCAT p n false).1.handles[h]? = some f := by
    have happ : ∀ g, (s.handles ++ [g])[h]? = some f := fun g => by
      rw [List.getElem?_append_left (List.getElem?_eq_some_iff.mp hf).1]; exact hf
    simp only [St.OCAT, Bool.false_eq_true, if_false]
    split
    · exact ⟨hnot _ _ _ _, happ _⟩
    · exact ⟨hnot _ _ _ _, happ _⟩
  have key : ∀ (ops : List Op) (t : St), Proper t ops → h ∉ t.lfps.map Prod.snd → t.handles[h]? = some f → (runAll t ops).1.handles[h]? = some f := by
    intro ops
    induction ops with
    | nil => intro t _ _ h3; exact h3
    | cons op ops ih =>
      intro t h1 h2 h3
      rw [Proper] at h1
      rw [runAll]
      refine ih _ h1.2 ?_ ?_
      · cases ho : isOcat op with
        | false => rw [(run_dir t op ho).1]; exact h2
        | true =>
          cases op with
          | ocat q m fl =>
            have hlt := (List.getElem?_eq_some_iff.mp h3).1
            have : h ∉ (setKey t.lfps q t.handles.length).map Prod.snd := by
              intro hm
              simp only [setKey, List.map_cons, List.mem_cons, List.mem_map, List.mem_filter] at hm
              rcases hm with hm | ⟨e, ⟨k1, -⟩, k3⟩
              · omega
              · exact h2 (k3 ▸ List.mem_map_of_mem k1)
            simp only [Op.run, St.OCAT]
            split
            · exact h2
            · split <;> exact this
          | _ => cases ho
      · cases op with
        | close q fl =>
          simp only [Op.run, St.Close]
          split
          · exact h3
          · rename_i x hx
            have hne : h ≠ x := by
              rintro rfl
              exact h2 (List.mem_map_of_mem (f := Prod.snd) (lookup_mem hx))
            have := closeHandle_get t x fl h f h3
            rw [if_neg hne] at this
            exact this
        | closeAll o =>
          rcases closeAll_get o t h f h3 with k | ⟨k, -⟩
          · exact k
          · exact absurd ((h1.1 o rfl).mem_iff.mp k) h2
        | ocat q m fl =>
          have happ : ∀ g, (t.handles ++ [g])[h]? = some f := fun g => by
            rw [List.getElem?_append_left (List.getElem?_eq_some_iff.mp h3).1]; exact h3
          simp only [Op.run, St.OCAT]
          split
          · exact h3
          · split <;> exact happ _
        | move a b fl => simp only [Op.run]; rw [(move_same t a b fl).handles]; exact h3
        | read q o m fl => exact h3
        | write q o d fl =>
          simp only [Op.run, St.write]
          split
          · exact h3
          · split
            · exact h3
            · split
              · exact h3
              · split
                · exact h3
                · split
                  · exact h3
                  · split <;> exact h3
  exact ⟨f, key ops _ hp hstart.1 hstart.2, hfo⟩

example : Proper (runAll exDisk [.ocat (ascii "a") 1 false, .ocat (ascii "a") 1 false]).1 [.close (ascii "a") false, .closeAll [1]] :=
  ⟨by simp, by intro o h; cases h; decide +kernel, trivial⟩

/-! ## Pieces -/

theorem view_eq {s : St} (hr : Ready s) {p : Bytes} {h : Nat} (hl : s.lookup p = some h) :
    ∃ f, s.handles[h]? = some f ∧ s.handle p = some f ∧ f.isOpen = true ∧ view s p = some (s.data f.inode) := by
  obtain ⟨f, hf, ho⟩ := hr.isOpen p h hl
  have : s.handle p = some f := by unfold St.handle; rw [hl]; exact hf
  exact ⟨f, hf, this, ho, by unfold view; rw [this]; simp [ho]⟩

theorem readLoop_view (s : St) (hr : Ready s) (ti : TorInfo) (opened : List Bytes) (hop : ∀ p, p ∈ opened ↔ (s.lookup p).isSome = true)
    (ls : List PieceLocation) : ∀ (off : Nat) (buf : Bytes), readLoop s ti ls off buf = FileIO.readLoop (view s) ⟨opened, ti⟩ ls off buf := by
  induction ls with
  | nil => intro off buf; rfl
  | cons l ls ih =>
    intro off buf
    rw [readLoop, FileIO.readLoop]
    split
    · rfl
    · rename_i hamt
      cases he : ti.flist[l.fidx]? with
      | none => rfl
      | some e =>
        simp only
        cases hl : s.lookup e.base.localPath with
        | none =>
          have : e.base.localPath ∉ opened := by rw [hop, hl]; simp
          rw [if_neg this, St.read, hl]
        | some h =>
          have : e.base.localPath ∈ opened := by rw [hop, hl]; rfl
          obtain ⟨f, hf, -, ho, hv⟩ := view_eq hr hl
          rw [if_pos this, hv]
          simp only [St.read, hl, hf, ho]
          by_cases hs : l.loc.seekAmnt < 0
          · simp [hs]
          · simp only [if_neg hs]
            by_cases h0 : l.loc.readAmnt.toNat = 0
            · simp only [if_pos h0]
              rw [if_neg (by omega), ih]
              simp [h0]
            · simp only [if_neg h0, Bool.true_eq_false, Bool.false_eq_true, or_self, if_false]
              by_cases hc : (s.data f.inode).length < l.loc.seekAmnt.toNat + l.loc.readAmnt.toNat
              · rw [if_pos hc, if_pos ⟨hc, by omega⟩]
              · rw [if_neg hc, if_neg (fun x => hc x.1)]
                simp only
                rw [ih]
                congr 1
                rw [List.length_take, List.length_drop]
                omega

theorem write_ready (s : St) (hr : Ready s) (p : Bytes) (off : Int) (d : Bytes) (f : Option Nat) : Ready (s.write p off d f).1 ∧
    (s.write p off d f).1.lfps = s.lfps ∧ (s.write p off d f).1.handles = s.handles := by
  have h1 := (run_dir s (.write p off d f) rfl).1
  have h2 : (s.write p off d f).1.handles = s.handles := by
    simp only [St.write]
    split
    · rfl
    · split
      · rfl
      · split
        · rfl
        · split
          · rfl
          · split
            · rfl
            · split <;> rfl
  have hl : ∀ q, (s.write p off d f).1.lookup q = s.lookup q := by intro q; unfold St.lookup; rw [show (s.write p off d f).1.lfps = s.lfps from h1]
  have hh : ∀ q, (s.write p off d f).1.handle q = s.handle q := by intro q; unfold St.handle; rw [hl, h2]
  refine ⟨⟨?_, ?_⟩, h1, h2⟩
  · intro q h hq
    rw [hl] at hq
    obtain ⟨g, hg1, hg2⟩ := hr.isOpen q h hq
    exact ⟨g, by rw [h2]; exact hg1, hg2⟩
  · intro q q' g g' hq hq' hne
    rw [hh] at hq hq'
    exact hr.apart q q' g g' hq hq' hne

/-- a write under an open path changes what can be seen under this path, and nothing else -/
theorem write_view (s : St) (hr : Ready s) (p : Bytes) (h : Nat) (hl : s.lookup p = some h) (f : Handle) (hf : s.handles[h]? = some f) (ho : f.isOpen = true) (off : Int) (hoff : ¬ off < 0) (d : Bytes) :
    (s.write p off d none).2 = .ok [] ∧ view (s.write p off d none).1 = (view s).set p (writeAt (s.data f.inode) off.toNat d) := by
  have hfp : s.handle p = some f := by unfold St.handle; rw [hl]; exact hf
  by_cases hd : d = []
  · subst hd
    have : s.write p off [] none = (s, .ok []) := by simp only [St.write, hl, hf]; simp [hoff]
    rw [this]
    refine ⟨rfl, ?_⟩
    have hw : writeAt (s.data f.inode) off.toNat [] = s.data f.inode := by simp [writeAt]
    rw [hw]
    refine (set_self _ _ _ ?_).symm
    unfold view; rw [hfp]; simp [ho]
  · have : s.write p off d none = ({ s with data := fun j => if j = f.inode then writeAt (s.data f.inode) off.toNat d else s.data j }, .ok []) := by
      simp only [St.write, hl, hf]; simp [hoff, hd, ho]
    rw [this]
    refine ⟨rfl, ?_⟩
    funext q
    unfold FS.State.set
    have hq : St.handle { s with data := fun j => if j = f.inode then writeAt (s.data f.inode) off.toNat d else s.data j } q = s.handle q := rfl
    by_cases hqp : q = p
    · subst hqp
      rw [if_pos rfl]
      unfold view
      rw [hq, hfp]
      simp [ho]
    · rw [if_neg hqp]
      unfold view
      rw [hq]
      cases hg : s.handle q with
      | none => rfl
      | some g =>
        simp only
        have := hr.apart q p g f hg hfp hqp
        rw [if_neg this]

theorem writeLoop_view (ti : TorInfo) (opened : List Bytes) (full : Bytes) (ls : List PieceLocation) : ∀ (off : Nat) (s : St), Ready s →
    (∀ p, p ∈ opened ↔ (s.lookup p).isSome = true) →
    FileIO.writeLoop ⟨opened, ti⟩ full ls off (view s) = (view (writeLoop ti full ls off s).1, (writeLoop ti full ls off s).2) ∧
      Ready (writeLoop ti full ls off s).1 ∧ (writeLoop ti full ls off s).1.lfps = s.lfps ∧ (writeLoop ti full ls off s).1.handles = s.handles := by
  induction ls with
  | nil => intro off s hr _; exact ⟨rfl, hr, rfl, rfl⟩
  | cons l ls ih =>
    intro off s hr hop
    rw [writeLoop, FileIO.writeLoop]
    split
    · exact ⟨rfl, hr, rfl, rfl⟩
    · rename_i hamt
      cases he : ti.flist[l.fidx]? with
      | none => exact ⟨rfl, hr, rfl, rfl⟩
      | some e =>
        simp only
        cases hl : s.lookup e.base.localPath with
        | none =>
          have : e.base.localPath ∉ opened := by rw [hop, hl]; simp
          rw [if_neg this, St.write, hl]
          exact ⟨rfl, hr, rfl, rfl⟩
        | some h =>
          have hin : e.base.localPath ∈ opened := by rw [hop, hl]; rfl
          obtain ⟨f, hf, -, ho, hv⟩ := view_eq hr hl
          rw [if_pos hin, hv]
          by_cases hs : l.loc.seekAmnt < 0
          · have : s.write e.base.localPath l.loc.seekAmnt ((full.drop off).take l.loc.readAmnt.toNat) none = (s, .err .os) := by
              simp only [St.write, hl, hf]; simp [hs]
            rw [this]
            simp only [if_pos hs]
            exact ⟨trivial, hr, trivial, trivial⟩
          · obtain ⟨w1, w2⟩ := write_view s hr _ h hl f hf ho l.loc.seekAmnt hs ((full.drop off).take l.loc.readAmnt.toNat)
            obtain ⟨w3, w4, w5⟩ := write_ready s hr e.base.localPath l.loc.seekAmnt ((full.drop off).take l.loc.readAmnt.toNat) none
            simp only [if_neg hs]
            rw [← w2]
            generalize s.write e.base.localPath l.loc.seekAmnt ((full.drop off).take l.loc.readAmnt.toNat) none = t at w1 w3 w4 w5
            obtain ⟨t1, t2⟩ := t
            simp only at w1 w3 w4 w5
            subst w1
            simp only
            obtain ⟨i1, i2, i3, i4⟩ := ih (off + l.loc.readAmnt.toNat) t1 w3 (by intro p; unfold St.lookup; rw [w4]; exact hop p)
            exact ⟨i1, i2, i3.trans w4, i4.trans w5⟩

/-- **C77**: as long as all files are open and lead to different files, reading and writing pieces is reading and writing the files under
their paths, as in the model of `FileIO` by paths (Model/FileIO). -/
theorem C77_pieces (H : Bytes → Bytes) (s : St) (hr : Ready s) (ti : TorInfo) (opened : List Bytes)
    (hop : ∀ p, p ∈ opened ↔ (s.lookup p).isSome = true) (i : Int) :
    (∀ buf, ReadPiece s ti i buf = FileIO.ReadPiece (view s) ⟨opened, ti⟩ i buf) ∧
    ∀ d spare, FileIO.WritePiece H (view s) ⟨opened, ti⟩ i d spare = (view (WritePiece H s ti i d spare).1, (WritePiece H s ti i d spare).2) ∧
      Ready (WritePiece H s ti i d spare).1 ∧ (WritePiece H s ti i d spare).1.lfps = s.lfps ∧ (WritePiece H s ti i d spare).1.handles = s.handles := by
  constructor
  · intro buf
    unfold ReadPiece FileIO.ReadPiece
    simp only
    cases ti.PieceLookup i with
    | ok locs => exact readLoop_view s hr ti opened hop locs 0 buf
    | err e => rfl
    | panic => rfl
    | timeout => rfl
  · intro d spare
    unfold WritePiece FileIO.WritePiece
    simp only
    cases ti.PieceLookup i with
    | ok locs =>
      simp only
      cases ti.PieceHash i with
      | ok k =>
        simp only
        split
        · exact ⟨rfl, hr, rfl, rfl⟩
        · exact writeLoop_view ti opened _ locs 0 s hr hop
      | err e => exact ⟨rfl, hr, rfl, rfl⟩
      | panic => exact ⟨rfl, hr, rfl, rfl⟩
      | timeout => exact ⟨rfl, hr, rfl, rfl⟩
    | err e => exact ⟨rfl, hr, rfl, rfl⟩
    | panic => exact ⟨rfl, hr, rfl, rfl⟩
    | timeout => exact ⟨rfl, hr, rfl, rfl⟩

/-- **C77**: `OCAT` on a disk without links brings a `FileIO` into the state that `C77_pieces` needs: all files open, different paths lead to
different files, and what can be read and written under a path is the file with this name. -/
theorem C77_start (dir : Bytes → Option Nat) (data : Nat → Bytes) (used : Nat) (hu : ∀ p i, dir p = some i → i < used)
    (hinj : ∀ p q i, dir p = some i → dir q = some i → p = q) (files : List (Bytes × Nat × Bool)) :
    Ready (runAll (NewFileIO dir data used) (files.map fun f => .ocat f.1 f.2.1 f.2.2)).1 ∧
      ∀ p, ((runAll (NewFileIO dir data used) (files.map fun f => .ocat f.1 f.2.1 f.2.2)).1.lookup p).isSome = true →
        view (runAll (NewFileIO dir data used) (files.map fun f => .ocat f.1 f.2.1 f.2.2)).1 p =
          file (runAll (NewFileIO dir data used) (files.map fun f => .ocat f.1 f.2.1 f.2.2)).1 p := by
  have key : ∀ (files : List (Bytes × Nat × Bool)) (s : St), Wf s → (∀ p i, s.dir p = some i → i < s.used) →
      (∀ p q i, s.dir p = some i → s.dir q = some i → p = q) →
      (∀ p h, s.lookup p = some h → ∃ i, s.handles[h]? = some ⟨i, true⟩ ∧ s.dir p = some i) →
      (∀ p q i, (runAll s (files.map fun f => .ocat f.1 f.2.1 f.2.2)).1.dir p = some i → (runAll s (files.map fun f => .ocat f.1 f.2.1 f.2.2)).1.dir q = some i → p = q) ∧
      (∀ p h, (runAll s (files.map fun f => .ocat f.1 f.2.1 f.2.2)).1.lookup p = some h →
        ∃ i, (runAll s (files.map fun f => .ocat f.1 f.2.1 f.2.2)).1.handles[h]? = some ⟨i, true⟩ ∧ (runAll s (files.map fun f => .ocat f.1 f.2.1 f.2.2)).1.dir p = some i) := by
    intro files
    induction files with
    | nil => intro s _ _ h2 h3; exact ⟨h2, h3⟩
    | cons x xs ih =>
      intro s hw h1 h2 h3
      obtain ⟨path, n, fails⟩ := x
      rw [List.map_cons, runAll]
      simp only [Op.run]
      have hw' := hw.run (.ocat path n fails)
      simp only [Op.run] at hw'
      have hlt : ∀ (p : Bytes) (h : Nat), s.lookup p = some h → h < s.handles.length := fun p h hl => hw.lt _ (lookup_mem hl)
      unfold St.OCAT at hw' ⊢
      cases fails with
      | true => exact ih s hw h1 h2 h3
      | false =>
        simp only [Bool.false_eq_true, if_false] at hw' ⊢
        cases hd : s.dir path with
        | some i =>
          simp only [hd] at hw' ⊢
          refine ih _ hw' h1 h2 ?_
          intro p h hl
          rw [lookup_setKey] at hl
          split at hl
          · rename_i hp
            cases hl
            exact ⟨i, by simp, by rw [hp]; exact hd⟩
          · obtain ⟨j, k1, k2⟩ := h3 p h hl
            exact ⟨j, by simp only; rw [List.getElem?_append_left (hlt p h hl)]; exact k1, k2⟩
        | none =>
          simp only [hd] at hw' ⊢
          refine ih _ hw' ?_ ?_ ?_
          · intro p j hj
            simp only at hj ⊢
            split at hj
            · cases hj; omega
            · have := h1 p j hj; omega
          · intro p q j hp hq
            simp only at hp hq
            split at hp
            · cases hp
              split at hq
              · rw [‹p = path›, ‹q = path›]
              · have := h1 q _ hq; omega
            · split at hq
              · cases hq
                have := h1 p _ hp; omega
              · exact h2 p q j hp hq
          · intro p h hl
            rw [lookup_setKey] at hl
            simp only
            split at hl
            · rename_i hp
              cases hl
              exact ⟨s.used, by simp, by simp [hp]⟩
            · rename_i hp
              obtain ⟨j, k1, k2⟩ := h3 p h hl
              exact ⟨j, by rw [List.getElem?_append_left (hlt p h hl)]; exact k1, by rw [if_neg hp]; exact k2⟩
  obtain ⟨h2, h3⟩ := key files (NewFileIO dir data used) ⟨List.nodup_nil, List.nodup_nil, by simp [NewFileIO]⟩ hu hinj (by intro p h hl; simp [NewFileIO, St.lookup] at hl)
  generalize (runAll (NewFileIO dir data used) (files.map fun f => .ocat f.1 f.2.1 f.2.2)).1 = s at h2 h3
  have hh : ∀ p f, s.handle p = some f → f.isOpen = true ∧ s.dir p = some f.inode := by
    intro p f hf
    unfold St.handle at hf
    rw [Option.bind_eq_some_iff] at hf
    obtain ⟨h, k1, k2⟩ := hf
    obtain ⟨i, k3, k4⟩ := h3 p h k1
    rw [k3] at k2
    cases k2
    exact ⟨rfl, k4⟩
  refine ⟨⟨?_, ?_⟩, ?_⟩
  · intro p h hl
    obtain ⟨i, k, -⟩ := h3 p h hl
    exact ⟨_, k, rfl⟩
  · intro p q f g hf hg hne he
    refine hne (h2 p q f.inode (hh p f hf).2 ?_)
    rw [he]
    exact (hh q g hg).2
  · intro p hp
    rw [Option.isSome_iff_exists] at hp
    obtain ⟨h, hl⟩ := hp
    obtain ⟨i, k1, k2⟩ := h3 p h hl
    have : s.handle p = some ⟨i, true⟩ := by unfold St.handle; rw [hl]; exact k1
    unfold view file
    rw [this, k2]
    rfl

example : view (runAll exDisk [.ocat (ascii "old") 3 false, .ocat (ascii "x") 1 false]).1 (ascii "old") = some [5, 6, 0] ∧
    view (runAll exDisk [.ocat (ascii "old") 3 false, .ocat (ascii "x") 1 false]).1 (ascii "x") = some [0] := by decide +kernel

/-- **C77**: what `OCAT` does to the files.  The file has the wanted length, with its old bytes as far as they go and zeros behind them; it can be read and
written; all other files and handles are as before.  (Other names of the same file excepted; the numbers of files that exist are below `used`.) -/
theorem C77_ocat (s : St) (path : Bytes) (n : Nat) (hu : ∀ p i, s.dir p = some i → i < s.used) :
    (s.OCAT path n false).2 = .ok [] ∧
    file (s.OCAT path n false).1 path = some (((file s path).getD []).take n ++ List.replicate (n - ((file s path).getD []).length) 0) ∧
    view (s.OCAT path n false).1 path = file (s.OCAT path n false).1 path ∧
    (∀ q, q ≠ path → (s.dir q = none ∨ s.dir q ≠ s.dir path) → file (s.OCAT path n false).1 q = file s q) ∧
    (∀ q, q ≠ path → (s.OCAT path n false).1.lookup q = s.lookup q) ∧
    ∃ e, s.OCAT path n true = (s, .err e) := by
  refine ⟨?_, ?_, ?_, ?_, ?_, .os, by simp [St.OCAT]⟩
  · unfold St.OCAT
    cases s.dir path <;> rfl
  · unfold St.OCAT
    cases hd : s.dir path <;> simp [file, hd]
  · unfold St.OCAT
    cases hd : s.dir path <;> simp [view, St.handle, lookup_setKey, file, hd]
  · intro q hq hl
    unfold St.OCAT
    cases hd : s.dir path with
    | none =>
      cases hq' : s.dir q with
      | none => simp [file, hq, hq']
      | some j => have := hu q j hq'; simp [file, hq, hq', Nat.ne_of_lt this]
    | some i =>
      cases hq' : s.dir q with
      | none => simp [file, hq']
      | some j =>
        have : j ≠ i := by rintro rfl; rw [hd, hq'] at hl; simp at hl
        simp [file, hq', this]
  · intro q hq
    unfold St.OCAT
    cases hd : s.dir path <;> simp [lookup_setKey, hq]

example : file (exDisk.OCAT (ascii "new") 2 false).1 (ascii "new") = some [0, 0] ∧ file (exDisk.OCAT (ascii "new") 2 false).1 (ascii "old") = some [5, 6] ∧
    file (exDisk.OCAT (ascii "old") 1 false).1 (ascii "old") = some [5] := by decide +kernel

theorem runAll_moves (ops : List Op) (hm : ∀ op ∈ ops, isMove op = true) (s : St) : Same (runAll s ops).1 s := by
  have := (runAll_same ops (fun op h => by have := hm op h; cases op <;> first | rfl | cases this) (Same.mk (s := s) (t := s) rfl rfl rfl)).1
  rw [show ops.filter (fun op => !isMove op) = [] by
    rw [List.filter_eq_nil_iff]; intro op h; simp [hm op h]] at this
  exact this

theorem readLoop_same {s t : St} (h : Same s t) (ti : TorInfo) (ls : List PieceLocation) : ∀ off buf, readLoop s ti ls off buf = readLoop t ti ls off buf := by
  induction ls with
  | nil => intro off buf; rfl
  | cons l ls ih =>
    intro off buf
    rw [readLoop, readLoop]
    have : ∀ p o n f, s.read p o n f = t.read p o n f := fun p o n f => (h.run (.read p o n f) rfl rfl).2
    simp only [this, ih]

/-- **C77**: a piece that was written is read back after any moves of the files, and so are all other pieces. -/
theorem C77_survives_moves (H : Bytes → Bytes) (pl : Nat) (hashes : Bytes) (files : List EntryBase) (ti : TorInfo)
    (h : FileIO.Accepted pl hashes files ti) (hp : (files.map EntryBase.localPath).Nodup) (s : St) (hr : Ready s)
    (hk : ∀ p, p ∈ files.map EntryBase.localPath ↔ (s.lookup p).isSome = true) (cs : List Bytes) (hs : FileIO.Stored (view s) files cs)
    (i : Nat) (hi : i < ti.numPieces) (d spare : Bytes) (hh : H d = Layout.range hashes (20 * i) 20)
    (hl : d.length = (Layout.pieceOf cs.flatten pl i).length) (moves : List Op) (hm : ∀ op ∈ moves, isMove op = true) (buf : Bytes) (hb : pl ≤ buf.length) :
    ∃ s', WritePiece H s ti i d spare = (s', .ok d.length) ∧
      ReadPiece (runAll s' moves).1 ti i buf = .ok (d.length, d ++ buf.drop d.length) ∧
      ∀ j : Nat, j ≠ i → j < ti.numPieces → ReadPiece (runAll s' moves).1 ti j buf = ReadPiece s ti j buf := by
  have hpaths : ti.flist.map (fun e => e.base.localPath) = files.map EntryBase.localPath := by
    obtain ⟨-, -, hfl⟩ := h.np
    apply List.ext_getElem?
    intro k
    rw [List.getElem?_map, List.getElem?_map, hfl, entriesFrom_get]
    cases files[k]? with
    | none => rfl
    | some f =>
      simp only [Option.map_some]
      unfold entryAt; split
      · rfl
      · split <;> rfl
  have hop : ∀ p, p ∈ (FileIO.openedAll ti).opened ↔ (s.lookup p).isSome = true := by
    intro p
    rw [← hk p, ← hpaths]
    rfl
  obtain ⟨fs', cs', w1, w2, w3, w4, -⟩ := FileIO.C26_write H pl hashes files ti h hp (view s) cs hs i hi d spare hh hl
  obtain ⟨p1, p2⟩ := C77_pieces H s hr ti _ hop i
  obtain ⟨q1, q2, q3, q4⟩ := p2 d spare
  have hw : FileIO.WritePiece H (view s) ⟨(FileIO.openedAll ti).opened, ti⟩ i d spare = (fs', .ok d.length) := w1
  rw [hw] at q1
  generalize hwp : WritePiece H s ti i d spare = t at q1 q2 q3 q4
  obtain ⟨s', r⟩ := t
  simp only [Prod.mk.injEq] at q1 q2 q3 q4
  obtain ⟨e1, e2⟩ := q1
  have hop' : ∀ p, p ∈ (FileIO.openedAll ti).opened ↔ (s'.lookup p).isSome = true := by
    intro p; unfold St.lookup; rw [q3]; exact hop p
  have hsame := runAll_moves moves hm s'
  have hread : ∀ j : Nat, j < ti.numPieces → ReadPiece (runAll s' moves).1 ti j buf =
      .ok ((Layout.pieceOf cs'.flatten pl j).length, Layout.pieceOf cs'.flatten pl j ++ buf.drop (Layout.pieceOf cs'.flatten pl j).length) := by
    intro j hj
    have h1 : ReadPiece (runAll s' moves).1 ti j buf = ReadPiece s' ti j buf := by
      unfold ReadPiece
      cases ti.PieceLookup j with
      | ok locs => exact readLoop_same hsame ti locs 0 buf
      | _ => rfl
    rw [h1, (C77_pieces H s' q2 ti _ hop' j).1 buf]
    rw [← e1]
    refine FileIO.C26_read pl hashes files ti h fs' cs' w2 j hj buf ?_
    unfold Layout.pieceOf
    rw [List.length_take]; omega
  refine ⟨s', by rw [← e2], ?_, ?_⟩
  · rw [hread i hi, w3]
  · intro j hj hjn
    rw [hread j hjn, w4 j hj, (C77_pieces H s hr ti _ hop j).1 buf]
    refine (FileIO.C26_read pl hashes files ti h (view s) cs hs j hjn buf ?_).symm
    unfold Layout.pieceOf
    rw [List.length_take]; omega

/-- three files made on an empty disk meet the hypotheses: a piece across two of them is written, the files change places, the piece is read -/
example : ∃ ti, FileIO.Accepted 4 FileIO.exHashes exFiles ti ∧ (exFiles.map EntryBase.localPath).Nodup ∧
    Ready (runAll (NewFileIO (fun _ => none) (fun _ => []) 0) ([(ascii "a", 5, false), (ascii "e", 0, false), (ascii "b", 8, false)].map fun f => .ocat f.1 f.2.1 f.2.2)).1 ∧
    FileIO.Stored (view (runAll (NewFileIO (fun _ => none) (fun _ => []) 0) [.ocat (ascii "a") 5 false, .ocat (ascii "e") 0 false, .ocat (ascii "b") 8 false]).1) exFiles
      [[0, 0, 0, 0, 0], [], [0, 0, 0, 0, 0, 0, 0, 0]] ∧
    ReadPiece (runAll (WritePiece FileIO.exH (runAll (NewFileIO (fun _ => none) (fun _ => []) 0)
      [.ocat (ascii "a") 5 false, .ocat (ascii "e") 0 false, .ocat (ascii "b") 8 false]).1 ti 1 [5, 6, 7, 8] []).1
      [.move (ascii "a") (ascii "x") false, .move (ascii "b") (ascii "a") false]).1 ti 1 [0, 0, 0, 0] = .ok (4, [5, 6, 7, 8]) := by
  refine ⟨_, ⟨by decide, exFiles_nonneg, ascii "t", rfl⟩, by decide +kernel,
    (C77_start _ _ _ (by simp) (by simp) _).1, ⟨by decide, ?_⟩, by decide +kernel⟩
  intro k f c hf hc
  match k with
  | 0 => cases hf; cases hc; decide +kernel
  | 1 => cases hf; cases hc; decide +kernel
  | 2 => cases hf; cases hc; decide +kernel
  | k + 3 => cases hc

end Verif.Handles
