import Verif.Lemmas.Descriptors
import Verif.Model.FileIO
/-
C123: files that cannot be opened.
-/
set_option autoImplicit false

namespace Verif.Descriptors
open Verif.FS Verif.Files

theorem replace_fs (keys : List Bytes) (path : Bytes) (s : Sys) : (replace keys path s).fs = s.fs := by
  unfold replace
  split <;> rfl

/-- **C123**, the model: opening files with limits is one of the things that the model of C28 and C71 allows. -/
theorem C123_same (R : Rules) (es : List Entry) (hn : ∀ e ∈ es, 0 ≤ e.base.length) (keys : List Bytes) (s s' : Sys) (o : Outcome)
    (h : AllL R (es.map fun e => (e.base.localPath, e.base.length.toNat)) keys s o s') : Exec true (FileIO.OCATAll es) s.fs o s'.fs := by
  induction es generalizing keys s with
  | nil => cases h; exact .ret _ _
  | cons e es ih =>
    rw [FileIO.OCATAll]
    have he : ((e.base.length.toNat : Nat) : Int) = e.base.length := Int.toNat_of_nonneg (hn e (by simp))
    cases h with
    | next _ _ _ _ m _ _ h1 h2 =>
      have h1 := project h1
      simp only [he] at h1
      have := ih (fun e he => hn e (by simp [he])) _ _ h2
      rw [replace_fs] at this
      exact Exec.bind h1 this
    | stop _ _ _ _ _ _ h1 hne =>
      have h1 := project h1
      simp only [he] at h1
      cases o with
      | crashed => exact bind_crash h1
      | done r =>
        refine Exec.bind h1 ?_
        cases r with
        | ok u => exact absurd rfl hne
        | err e => exact .ret _ _
        | panic => exact .ret _ _
        | timeout => exact .ret _ _

/-- **C123** (partial: files with different paths).  However the opening of the files ends, with whatever limit of descriptors, forbidden files, failing calls or a crash: no file
loses data that belongs to the torrent, and other files are not touched. -/
theorem C123_kept_partial (R : Rules) (files : List (Bytes × Nat)) (hd : (files.map Prod.fst).Nodup) (keys : List Bytes) (hk : ∀ f ∈ files, f.1 ∉ keys)
    (s s' : Sys) (o : Outcome) (hg : s.garbage = 0) (h : AllL R files keys s o s') :
    (∀ f ∈ files, prepared (old s'.fs f.1) f.2 = prepared (old s.fs f.1) f.2) ∧ (∀ p, p ∉ files.map Prod.fst → s'.fs p = s.fs p) ∧ s'.garbage = 0 := by
  induction h with
  | nil keys s => exact ⟨nofun, fun _ _ => rfl, hg⟩
  | stop f fs keys s s' o h1 hne =>
    obtain ⟨g, hc⟩ := ocat_cases hg h1
    have key : s'.fs = s.fs ∨ ∃ c', s'.fs = s.fs.set f.1 c' ∧ prepared c' f.2 = prepared (old s.fs f.1) f.2 := by
      rcases hc with ⟨-, ht, -⟩ | ⟨-, e, -⟩
      · rcases ht with ⟨e, -⟩ | ⟨c', e, hp, -⟩
        · exact .inl e
        · exact .inr ⟨c', e, hp⟩
      · exact .inl e
    rw [List.map_cons, List.nodup_cons] at hd
    refine ⟨?_, ?_, g⟩
    · intro f' hf'
      rcases key with e | ⟨c', e, hp⟩
      · rw [e]
      · rw [e]
        rcases List.mem_cons.mp hf' with rfl | hf'
        · unfold old at hp ⊢; rw [set_get]; exact hp
        · have : f'.1 ≠ f.1 := fun e => hd.1 (e ▸ List.mem_map_of_mem hf')
          unfold old State.set
          rw [if_neg this]
    · intro p hp
      rcases key with e | ⟨c', e, -⟩
      · rw [e]
      · rw [e]; unfold State.set; rw [if_neg fun h => hp (by simp [h])]
  | next f fs keys s m s' o h1 _ ih =>
    obtain ⟨g, hc⟩ := ocat_cases hg h1
    rw [List.map_cons, List.nodup_cons] at hd
    have hrep : replace keys f.1 m = m := by unfold replace; rw [if_neg (hk f (by simp))]; rfl
    rw [hrep] at ih
    have e : m.fs = s.fs.set f.1 (prepared (old s.fs f.1) f.2) := by
      rcases hc with ⟨-, ht, -⟩ | ⟨-, -, -, ⟨e, he⟩ | ⟨-, he⟩⟩
      · rcases ht with ⟨-, hne⟩ | ⟨c', e, -, hok, -⟩
        · exact absurd rfl hne
        · rw [e, hok rfl]
      · cases he
      · cases he
    obtain ⟨i1, i2, i3⟩ := ih hd.2 (fun f' hf' => by
      rw [List.mem_cons, not_or]
      exact ⟨fun e => hd.1 (e ▸ List.mem_map_of_mem hf'), hk f' (by simp [hf'])⟩) g
    refine ⟨?_, ?_, i3⟩
    · intro f' hf'
      rcases List.mem_cons.mp hf' with rfl | hf'
      · unfold old at e ⊢
        rw [i2 _ hd.1, e, set_get]
        exact prepared_idem _ _
      · have : f'.1 ≠ f.1 := fun e => hd.1 (e ▸ List.mem_map_of_mem hf')
        rw [i1 f' hf', e]
        unfold old State.set
        rw [if_neg this]
    · intro p hp
      rw [List.map_cons, List.mem_cons, not_or] at hp
      rw [i2 p hp.2, e]
      unfold State.set
      rw [if_neg hp.1]

/-- the file at this place in the list can be opened when those in front of it are open -/
def Fits (R : Rules) (used : Nat) (files : List (Bytes × Nat)) (j : Nat) : Prop :=
  used + j < R.limit ∧ ∀ f, files[j]? = some f → R.deny f.1 = false

/-- **C123**, exact (partial: files with different paths).  If no call fails without reason, the opening ends at the first file that cannot be opened, with an error, or with success if
there is none.  The files in front of it are prepared and open, the others are as they were. -/
theorem C123_exact_partial (R : Rules) (hf : R.faulty = false) (files : List (Bytes × Nat)) (hd : (files.map Prod.fst).Nodup) (keys : List Bytes) (hk : ∀ f ∈ files, f.1 ∉ keys)
    (s : Sys) (hg : s.garbage = 0) :
    (∃ o s', AllL R files keys s o s') ∧ ∀ o s', AllL R files keys s o s' →
      ∃ k, k ≤ files.length ∧ (∀ j, j < k → Fits R s.used files j) ∧ s'.used = s.used + k ∧
        (∀ j f, j < k → files[j]? = some f → s'.fs f.1 = some (prepared (old s.fs f.1) f.2)) ∧
        (∀ p, (∀ j f, j < k → files[j]? = some f → p ≠ f.1) → s'.fs p = s.fs p) ∧
        (k = files.length ∧ o = .done (.ok ()) ∨ k < files.length ∧ ¬ Fits R s.used files k ∧ ∃ e, o = .done (.err e)) := by
  induction files generalizing keys s with
  | nil =>
    refine ⟨⟨_, _, .nil keys s⟩, fun o s' h => ?_⟩
    cases h
    exact ⟨0, Nat.le_refl _, fun j hj => absurd hj (Nat.not_lt_zero _), rfl, fun j _ hj => absurd hj (Nat.not_lt_zero _), fun _ _ => rfl, .inl ⟨rfl, rfl⟩⟩
  | cons f files ih =>
    rw [List.map_cons, List.nodup_cons] at hd
    have hk' : ∀ f' ∈ files, f'.1 ∉ f.1 :: keys := fun f' hf' => by
      rw [List.mem_cons, not_or]
      exact ⟨fun e => hd.1 (e ▸ List.mem_map_of_mem hf'), hk f' (by simp [hf'])⟩
    have hrep : ∀ m, replace keys f.1 m = m := fun m => by unfold replace; rw [if_neg (hk f (by simp))]; rfl
    have hfits : Fits R s.used (f :: files) 0 ↔ R.may s f.1 := by
      unfold Fits Rules.may
      simp
    constructor
    · by_cases hm : R.may s f.1
      · obtain ⟨⟨o, s', h⟩, -⟩ := ih hd.2 (f.1 :: keys) hk' (s.opened.withFs (s.fs.set f.1 (prepared (old s.fs f.1) f.2))) hg
        exact ⟨o, s', .next f files keys s _ s' o (ocat_run_may R f.1 f.2 s hm) (by rw [hrep]; exact h)⟩
      · exact ⟨_, s, .stop f files keys s s _ (ocat_run_not R f.1 f.2 s hm) (by simp)⟩
    · intro o s' h
      cases h with
      | stop _ _ _ _ _ _ h1 hne =>
        obtain ⟨g, ⟨-, -, -, ht⟩ | ⟨hm, e, hu, he⟩⟩ := ocat_cases hg h1
        · exact absurd (ht hf) hne
        · refine ⟨0, Nat.zero_le _, fun j hj => absurd hj (Nat.not_lt_zero _), hu, fun j _ hj => absurd hj (Nat.not_lt_zero _), fun _ _ => by rw [e], .inr ⟨by simp, mt hfits.mp hm, ?_⟩⟩
          rcases he with he | ⟨h1, -⟩
          · exact he
          · rw [hf] at h1; cases h1
      | next _ _ _ _ m _ _ h1 h2 =>
        obtain ⟨g, ⟨hm, ht, hu, -⟩ | ⟨-, -, -, ⟨e, he⟩ | ⟨-, he⟩⟩⟩ := ocat_cases hg h1
        · rw [hrep] at h2
          have e : m.fs = s.fs.set f.1 (prepared (old s.fs f.1) f.2) := by
            rcases ht with ⟨-, hne⟩ | ⟨c', e, -, hok, -⟩
            · exact absurd rfl hne
            · rw [e, hok rfl]
          have hu := hu rfl
          obtain ⟨k, k1, k2, k3, k4, k5, k6⟩ := (ih hd.2 (f.1 :: keys) hk' m g).2 o s' h2
          have hF : ∀ j, Fits R m.used files j ↔ Fits R s.used (f :: files) (j + 1) := by
            intro j
            unfold Fits
            rw [hu, List.getElem?_cons_succ, show s.used + 1 + j = s.used + (j + 1) by omega]
          refine ⟨k + 1, by simpa using k1, ?_, by omega, ?_, ?_, ?_⟩
          · intro j hj
            cases j with
            | zero => exact hfits.mpr hm
            | succ j => exact (hF j).mp (k2 j (by omega))
          · intro j f' hj hf'
            cases j with
            | zero =>
              rw [List.getElem?_cons_zero] at hf'
              cases hf'
              rw [k5 f.1 (fun j f' _ hf' he => hd.1 (he ▸ List.mem_map_of_mem (List.mem_of_getElem? hf'))), e]
              exact set_get _ _ _
            | succ j =>
              rw [List.getElem?_cons_succ] at hf'
              have hne : f'.1 ≠ f.1 := fun he => hd.1 (he ▸ List.mem_map_of_mem (List.mem_of_getElem? hf'))
              rw [k4 j f' (by omega) hf', e]
              unfold old State.set
              rw [if_neg hne]
          · intro p hp
            rw [k5 p (fun j f' hj hf' => hp (j + 1) f' (by omega) (by rw [List.getElem?_cons_succ]; exact hf')), e]
            unfold State.set
            rw [if_neg (hp 0 f (by omega) rfl)]
          · rcases k6 with ⟨k6, k7⟩ | ⟨k6, k7, k8⟩
            · exact .inl ⟨by simp [k6], k7⟩
            · exact .inr ⟨by simpa using k6, mt (hF k).mpr k7, k8⟩
        · cases he
        · cases he

/-- **C123**, exact (partial, as before): all files are opened if and only if there are enough descriptors and none of the files is forbidden. -/
theorem C123_iff_partial (R : Rules) (hf : R.faulty = false) (files : List (Bytes × Nat)) (hd : (files.map Prod.fst).Nodup) (s : Sys) (hg : s.garbage = 0) (hu : s.used ≤ R.limit)
    (o : Outcome) (s' : Sys) (h : AllL R files [] s o s') :
    (o = .done (.ok ()) ↔ s.used + files.length ≤ R.limit ∧ ∀ f ∈ files, R.deny f.1 = false) ∧ ((∃ e, o = .done (.err e)) ↔ o ≠ .done (.ok ())) := by
  obtain ⟨k, k1, k2, -, -, -, k6⟩ := (C123_exact_partial R hf files hd [] (by simp) s hg).2 o s' h
  rcases k6 with ⟨k6, rfl⟩ | ⟨k6, k7, e, rfl⟩
  · refine ⟨⟨fun _ => ⟨?_, ?_⟩, fun _ => rfl⟩, ⟨fun h => (by obtain ⟨e, he⟩ := h; cases he), fun he => absurd rfl he⟩⟩
    · cases hl : files.length with
      | zero => omega
      | succ n => have := (k2 n (by omega)).1; omega
    · intro f hf'
      obtain ⟨j, hj⟩ := List.mem_iff_getElem?.mp hf'
      exact (k2 j (by rw [k6]; exact (List.getElem?_eq_some_iff.mp hj).1)).2 f hj
  · refine ⟨⟨fun he => (by cases he), fun h12 => ?_⟩, ⟨fun _ he => (by cases he), fun _ => ⟨e, rfl⟩⟩⟩
    obtain ⟨h1, h2⟩ := h12
    exact absurd ⟨by omega, fun f hf' => h2 f (List.mem_of_getElem? hf')⟩ k7

/-- **C123** refuted for files with the same path: although no call fails without reason and nothing is forbidden, the data of a file can be lost.  The torrent names one file twice, which
makes the first `os.File` garbage; opening the next file fails as there are no descriptors left; the garbage collector closes the first one; and then the file is created anew, over the data that was
there.  Start-up succeeds. -/
theorem C123_refuted_duplicates (fs : State) (a b ca cb : Bytes) (hab : a ≠ b) (ha : fs a = some ca) (hb : fs b = some cb) (used : Nat) :
    ∃ s', AllL ⟨used + 2, fun _ => false, false⟩ [(a, ca.length), (a, ca.length), (b, cb.length)] [] ⟨fs, used, 0⟩ (.done (.ok ())) s' ∧
      s'.fs b = some (List.replicate cb.length 0) ∧ (cb ≠ List.replicate cb.length 0 → s'.fs b ≠ fs b) ∧ s'.used ≤ used + 2 := by
  have hrun : ∀ (s : Sys), s.fs = fs → s.used < used + 2 →
      ExecL ⟨used + 2, fun _ => false, false⟩ (OCAT a ca.length) s (.done (.ok ())) s.opened := by
    intro s e hs
    have := ocat_run_may ⟨used + 2, fun _ => false, false⟩ a ca.length s ⟨hs, rfl⟩
    have ho : old s.fs a = ca := by unfold old; rw [e, ha]; rfl
    rw [ho, prepared_of_length ca _ rfl, set_self s.fs a ca (by rw [e]; exact ha)] at this
    exact this
  refine ⟨⟨fs.set b (List.replicate cb.length 0), used + 2, 0⟩, ?_, set_get _ _ _, fun hne he => hne ?_, Nat.le_refl _⟩
  case refine_2 =>
    rw [hb] at he
    have := (set_get fs b (List.replicate cb.length 0)).symm.trans he
    exact (Option.some.inj this).symm
  refine .next (a, ca.length) _ [] _ ⟨fs, used + 1, 0⟩ _ _ (hrun ⟨fs, used, 0⟩ rfl (by simp)) ?_
  refine .next (a, ca.length) _ [a] _ ⟨fs, used + 2, 0⟩ _ _ (hrun ⟨fs, used + 1, 0⟩ rfl (by simp)) ?_
  have e : replace [a] (a, ca.length).1 ⟨fs, used + 2, 0⟩ = ⟨fs, used + 2, 1⟩ := by simp [replace]
  rw [e]
  refine .next (b, cb.length) [] _ _ ⟨fs.set b (List.replicate cb.length 0), used + 2, 0⟩ _ _ ?_ ?_
  · unfold OCAT
    refine .open_fail _ _ _ _ _ (.inr fun h => absurd h.1 (Nat.lt_irrefl _)) (.gc _ _ _ _ (by simp) ?_)
    exact create_run ⟨used + 2, fun _ => false, false⟩ b cb.length (Sys.collected ⟨fs, used + 2, 1⟩) ⟨by simp [Sys.collected], rfl⟩
  · have e2 : replace [a, a] (b, cb.length).1 ⟨fs.set b (List.replicate cb.length 0), used + 2, 0⟩ = ⟨fs.set b (List.replicate cb.length 0), used + 2, 0⟩ := by
      simp [replace, Ne.symm hab]
    have e3 : ∀ s : Sys, AllL ⟨used + 2, fun _ => false, false⟩ [] ((b, cb.length).1 :: (a, ca.length).1 :: [a]) s (.done (.ok ())) s := fun s => .nil _ s
    show AllL _ [] _ (replace [a, a] (b, cb.length).1 _) _ _
    rw [e2]
    exact e3 _

/-- three files, two descriptors: an error, the first two are prepared, and the third keeps its data -/
example : ∃ o s', AllL ⟨2, fun _ => false, false⟩ [(ascii "a", 1), (ascii "b", 2), (ascii "c", 1)] [] ⟨fun p => if p = ascii "c" then some [7] else none, 0, 0⟩ o s' ∧
    (∃ e, o = .done (.err e)) ∧ s'.fs (ascii "c") = some [7] ∧ s'.used = 2 ∧ s'.fs (ascii "b") = some [0, 0] := by
  obtain ⟨⟨o, s', h⟩, hall⟩ := C123_exact_partial ⟨2, fun _ => false, false⟩ rfl [(ascii "a", 1), (ascii "b", 2), (ascii "c", 1)] (by decide) [] (by simp)
    ⟨fun p => if p = ascii "c" then some [7] else none, 0, 0⟩ rfl
  obtain ⟨k, k1, k2, k3, k4, k5, k6⟩ := hall o s' h
  have hk : k = 2 := by
    have hle : k ≤ 2 := by
      apply Nat.le_of_not_lt
      intro hlt
      have := (k2 2 hlt).1
      simp at this
    apply Nat.le_antisymm hle
    rcases k6 with ⟨k6, -⟩ | ⟨-, k7, -⟩
    · rw [k6] at hle; simp at hle
    · apply Nat.le_of_not_lt
      intro hlt
      exact k7 ⟨by simpa using hlt, fun _ _ => rfl⟩
  subst hk
  refine ⟨o, s', h, ?_, ?_, k3, ?_⟩
  · rcases k6 with ⟨k6, -⟩ | ⟨-, -, k7⟩
    · simp at k6
    · exact k7
  · rw [k5 (ascii "c") (by
      intro j f hj hf
      match j with
      | 0 => cases hf; decide
      | 1 => cases hf; decide
      | j + 2 => omega)]
    rfl
  · rw [k4 1 (ascii "b", 2) (by omega) rfl]
    decide

end Verif.Descriptors
