import Verif.Model.FileConc
import Verif.Spec.Lts
/-
Lemmas about concurrent ReadPiece / WritePiece calls: the locks, no deadlock, termination.  For arbitrary metadata and calls.
-/
set_option autoImplicit false

namespace Verif.FileConc
open Verif.Files Verif.FS Verif.FileIO Verif.Lts

/-- the file a goroutine works on -/
def headPath (fio : FileIO) (t : Th) : Option Bytes :=
  match t.ls with
  | [] => none
  | l :: _ => (fio.torInfo.flist[l.fidx]?).map fun e => e.base.localPath

def Pc.isMove : Pc → Bool
  | .move _ => true
  | _ => false

def Pc.isBusy : Pc → Bool
  | .move _ => true
  | .pending => true
  | _ => false

/-- holds the read lock of `p` -/
def holdsR (fio : FileIO) (p : Bytes) (t : Th) : Bool := !t.write && t.pc.isMove && headPath fio t == some p
/-- holds the write lock of `p` or waits for the readers to leave -/
def holdsW (fio : FileIO) (p : Bytes) (t : Th) : Bool := t.write && t.pc.isBusy && headPath fio t == some p

/-- well-formed goroutines -/
structure WF (fio : FileIO) (t : Th) : Prop where
  pend : t.pc = .pending → t.write = true
  busy : t.pc.isBusy = true → ∃ l rest e, t.ls = l :: rest ∧ fio.torInfo.flist[l.fidx]? = some e
  amnt : ∀ k l rest, t.pc = .move k → t.ls = l :: rest → k ≤ l.loc.readAmnt.toNat

theorem TStep.wf {fio : FileIO} {faulty : Bool} {s s' : Shared} {t t' : Th} (h : TStep fio faulty s t s' t') : WF fio t' := by
  cases h with
  | finish hpc hl => exact ⟨by simp, by simp [Pc.isBusy], by simp⟩
  | slice l rest hpc hl hb => exact ⟨by simp, by simp [Pc.isBusy], by simp⟩
  | noEntry l rest hpc hl hb he => exact ⟨by simp, by simp [Pc.isBusy], by simp⟩
  | noPath l rest e hpc hl hb he ho => exact ⟨by simp, by simp [Pc.isBusy], by simp⟩
  | rlock l rest e hpc hl hb he ho hwr hfree =>
    exact ⟨by simp, fun _ => ⟨l, rest, e, hl, he⟩, by intro k l' rest' hk _; simp at hk; omega⟩
  | announce l rest e hpc hl hb he ho hwr hfree =>
    exact ⟨fun _ => hwr, fun _ => ⟨l, rest, e, hl, he⟩, by simp⟩
  | lock l rest e hpc hl he hfree =>
    exact ⟨by simp, fun _ => ⟨l, rest, e, hl, he⟩, by intro k l' rest' hk _; simp at hk; omega⟩
  | get l rest e k m c hpc hl he hwr hc hs0 hm hk hlen =>
    refine ⟨by simp, fun _ => ⟨l, rest, e, hl, he⟩, ?_⟩
    intro k' l' rest' hk' hl'
    simp only at hk' hl'
    rw [hl] at hl'; cases hl'; cases hk'; exact hk
  | put l rest e k m c hpc hl he hwr hc hs0 hm hk =>
    refine ⟨by simp, fun _ => ⟨l, rest, e, hl, he⟩, ?_⟩
    intro k' l' rest' hk' hl'
    simp only at hk' hl'
    rw [hl] at hl'; cases hl'; cases hk'; exact hk
  | eof l rest e k c hpc hl he hwr hc hs0 hk hlen => exact ⟨by simp, by simp [Pc.isBusy], by simp⟩
  | negative l rest e k hpc hl he hs0 => exact ⟨by simp, by simp [Pc.isBusy], by simp⟩
  | fail l rest e k hf hpc hl he => exact ⟨by simp, by simp [Pc.isBusy], by simp⟩
  | release l rest e k c hpc hl he hc hs0 hk => exact ⟨by simp, by simp [Pc.isBusy], by simp⟩

theorem release_readers (s : Shared) (w : Bool) (p q : Bytes) :
    (s.release w p).readers q = if q = p ∧ w = false then s.readers q - 1 else s.readers q := by
  unfold Shared.release
  cases w
  · simp only [Bool.false_eq_true, if_false, Shared.runlock, and_true]
  · simp [Shared.unlock]

theorem release_writer (s : Shared) (w : Bool) (p q : Bytes) :
    (s.release w p).writer q = if q = p ∧ w = true then false else s.writer q := by
  unfold Shared.release
  cases w
  · simp [Shared.runlock]
  · simp only [if_true, Shared.unlock, and_true]

/-- what a step of a goroutine does to the locks -/
theorem TStep.locks {fio : FileIO} {faulty : Bool} {s s' : Shared} {t t' : Th} (h : TStep fio faulty s t s' t') (hw : WF fio t) (p : Bytes)
    (hr : (holdsR fio p t).toNat ≤ s.readers p) (hwr : (holdsW fio p t).toNat ≤ (s.writer p).toNat) :
    s'.readers p + (holdsR fio p t).toNat = s.readers p + (holdsR fio p t').toNat ∧
    (s'.writer p).toNat + (holdsW fio p t).toNat = (s.writer p).toNat + (holdsW fio p t').toNat ∧
    (holdsW fio p t' = true → t'.pc.isMove = true → holdsW fio p t = true ∧ (t.pc.isMove = true ∨ s.readers p = 0) ∧ s'.readers p = s.readers p) ∧
    (s.readers p < s'.readers p → s.writer p = false) := by
  have hp : ∀ l rest e, t.ls = l :: rest → fio.torInfo.flist[l.fidx]? = some e → headPath fio t = some e.base.localPath := by
    intro l rest e h1 h2
    unfold headPath; rw [h1]; simp only; rw [h2]; rfl
  cases h with
  | finish hpc hl => simp [holdsR, holdsW, hpc, Pc.isMove, Pc.isBusy]
  | slice l rest hpc hl hb => simp [holdsR, holdsW, hpc, Pc.isMove, Pc.isBusy]
  | noEntry l rest hpc hl hb he => simp [holdsR, holdsW, hpc, Pc.isMove, Pc.isBusy]
  | noPath l rest e hpc hl hb he ho => simp [holdsR, holdsW, hpc, Pc.isMove, Pc.isBusy]
  | rlock l rest e hpc hl hb he ho hwr' hfree =>
    have h1 := hp l rest e hl he
    have h2 : ∀ w pc, headPath fio ⟨w, t.buf, t.ls, t.off, pc⟩ = some e.base.localPath := fun _ _ => h1
    simp only [holdsR, holdsW, hpc, Pc.isMove, Pc.isBusy, h1, h2, hwr', Shared.rlock]
    by_cases hq : p = e.base.localPath
    · subst hq; simp [hfree]
    · have : (some e.base.localPath == some p) = false := by simp; exact fun h => hq h.symm
      simp [hq, this]
  | announce l rest e hpc hl hb he ho hwr' hfree =>
    have h1 := hp l rest e hl he
    have h2 : ∀ w pc, headPath fio ⟨w, t.buf, t.ls, t.off, pc⟩ = some e.base.localPath := fun _ _ => h1
    simp only [holdsR, holdsW, hpc, Pc.isMove, Pc.isBusy, h1, h2, hwr', Shared.announce]
    by_cases hq : p = e.base.localPath
    · subst hq; simp [hfree]
    · have : (some e.base.localPath == some p) = false := by simp; exact fun h => hq h.symm
      simp [hq, this]
  | lock l rest e hpc hl he hfree =>
    have h1 := hp l rest e hl he
    have h2 : ∀ w pc, headPath fio ⟨w, t.buf, t.ls, t.off, pc⟩ = some e.base.localPath := fun _ _ => h1
    have hwr' := hw.pend hpc
    simp only [holdsR, holdsW, hpc, Pc.isMove, Pc.isBusy, h1, h2, hwr']
    by_cases hq : p = e.base.localPath
    · subst hq; simp [hfree]
    · have : (some e.base.localPath == some p) = false := by simp; exact fun h => hq h.symm
      simp [this]
  | get l rest e k m c hpc hl he hwr' hc hs0 hm hk hlen =>
    simp only [holdsR, holdsW, hpc, Pc.isMove, Pc.isBusy, hwr', headPath, hl]
    simp
  | put l rest e k m c hpc hl he hwr' hc hs0 hm hk =>
    simp only [holdsR, holdsW, hpc, Pc.isMove, Pc.isBusy, hwr', headPath, hl]
    simp
  | eof l rest e k c hpc hl he hwr' hc hs0 hk hlen =>
    have h1 := hp l rest e hl he
    rw [release_readers, release_writer]
    simp only [holdsR, holdsW, hpc, Pc.isMove, Pc.isBusy, h1, hwr'] at hr hwr ⊢
    by_cases hq : p = e.base.localPath
    · subst hq; simp at hr ⊢; omega
    · have : (some e.base.localPath == some p) = false := by simp; exact fun h => hq h.symm
      simp [hq, this]
  | negative l rest e k hpc hl he hs0 =>
    have h1 := hp l rest e hl he
    rw [release_readers, release_writer]
    simp only [holdsR, holdsW, hpc, Pc.isMove, Pc.isBusy, h1] at hr hwr ⊢
    by_cases hq : p = e.base.localPath
    · subst hq
      cases hb : t.write <;> simp [hb] at hr hwr ⊢ <;> first | omega | exact Nat.le_antisymm hwr (Bool.toNat_le _)
    · have : (some e.base.localPath == some p) = false := by simp; exact fun h => hq h.symm
      simp [hq, this]
  | fail l rest e k hf hpc hl he =>
    have h1 := hp l rest e hl he
    rw [release_readers, release_writer]
    simp only [holdsR, holdsW, hpc, Pc.isMove, Pc.isBusy, h1] at hr hwr ⊢
    by_cases hq : p = e.base.localPath
    · subst hq
      cases hb : t.write <;> simp [hb] at hr hwr ⊢ <;> first | omega | exact Nat.le_antisymm hwr (Bool.toNat_le _)
    · have : (some e.base.localPath == some p) = false := by simp; exact fun h => hq h.symm
      simp [hq, this]
  | release l rest e k c hpc hl he hc hs0 hk =>
    have h1 := hp l rest e hl he
    rw [release_readers, release_writer]
    simp only [holdsR, holdsW, hpc, Pc.isMove, Pc.isBusy, h1] at hr hwr ⊢
    by_cases hq : p = e.base.localPath
    · subst hq
      cases hb : t.write <;> simp [hb] at hr hwr ⊢ <;> first | omega | exact Nat.le_antisymm hwr (Bool.toNat_le _)
    · have : (some e.base.localPath == some p) = false := by simp; exact fun h => hq h.symm
      simp [hq, this]

/-- the locks say who holds them; a writer that transfers data is alone -/
structure LInv (fio : FileIO) (s : St) : Prop where
  wf : ∀ t ∈ s.ths, WF fio t
  rd : ∀ p, s.sh.readers p = s.ths.countP (holdsR fio p)
  wr : ∀ p, (s.sh.writer p).toNat = s.ths.countP (holdsW fio p)
  excl : ∀ p, ∀ t ∈ s.ths, holdsW fio p t = true → t.pc.isMove = true → s.sh.readers p = 0

theorem countP_ge {α : Type} (f : α → Bool) (l : List α) (j : Nat) (a : α) (h : l[j]? = some a) : (f a).toNat ≤ l.countP f := by
  cases hf : f a
  · simp
  · have := List.countP_pos_iff.mpr ⟨a, List.mem_of_getElem? h, hf⟩
    simpa using this

theorem countP_put {α : Type} (f : α → Bool) (l : List α) (j : Nat) (a b : α) (h : l[j]? = some a) :
    (l.set j b).countP f + (f a).toNat = l.countP f + (f b).toNat := by
  obtain ⟨hj, he⟩ := List.getElem?_eq_some_iff.mp h
  have hge := countP_ge f l j a h
  rw [List.countP_set hj, he]
  generalize List.countP f l = n at *
  cases hfa : f a <;> cases f b <;> rw [hfa] at hge <;>
    simp only [Bool.toNat_true, Bool.toNat_false, if_true, Bool.false_eq_true, if_false] at hge ⊢ <;> omega

theorem mem_set_of {α : Type} {l : List α} {j : Nat} {a b : α} (h : a ∈ l.set j b) : a ∈ l ∨ a = b := by
  obtain ⟨i, hi⟩ := List.mem_iff_getElem?.mp h
  rw [List.getElem?_set] at hi
  split at hi
  · split at hi
    · cases hi; exact .inr rfl
    · cases hi
  · exact .inl (List.mem_of_getElem? hi)

/-- two goroutines cannot both hold the write lock -/
theorem LInv.unique {fio : FileIO} {s : St} (h : LInv fio s) (p : Bytes) {i j : Nat} {t u : Th} (hi : s.ths[i]? = some t) (hj : s.ths[j]? = some u)
    (h1 : holdsW fio p t = true) (h2 : holdsW fio p u = true) : i = j := by
  apply Classical.byContradiction
  intro hne
  have hle : s.ths.countP (holdsW fio p) ≤ 1 := by
    rw [← h.wr p]; cases s.sh.writer p <;> decide
  -- replace the one by a goroutine that holds nothing
  have hb := countP_put (holdsW fio p) s.ths i t ⟨false, [], [], 0, .top⟩ hi
  have hx : holdsW fio p ⟨false, [], [], 0, .top⟩ = false := rfl
  have hj' : (s.ths.set i ⟨false, [], [], 0, .top⟩)[j]? = some u := by
    rw [List.getElem?_set, if_neg hne]; exact hj
  have hg := countP_ge (holdsW fio p) _ j u hj'
  rw [h1, hx] at hb
  rw [h2] at hg
  simp only [Bool.toNat_true, Bool.toNat_false] at hb hg
  omega

theorem LInv.step {fio : FileIO} {faulty : Bool} {s s' : St} (h : LInv fio s) (hs : Step fio faulty s s') : LInv fio s' := by
  cases hs with
  | mk j t t' sh' hj ht =>
    have hwf := h.wf t (List.mem_of_getElem? hj)
    have hr := fun p => countP_ge (holdsR fio p) _ _ _ hj
    have hw := fun p => countP_ge (holdsW fio p) _ _ _ hj
    have key := fun p => ht.locks hwf p (by rw [h.rd p]; exact hr p) (by rw [h.wr p]; exact hw p)
    refine ⟨?_, ?_, ?_, ?_⟩
    · intro u hu
      rcases mem_set_of hu with hu | rfl
      · exact h.wf u hu
      · exact ht.wf
    · intro p
      have h1 := (key p).1
      have h2 := countP_put (holdsR fio p) _ _ _ t' hj
      have h3 := h.rd p
      simp only; omega
    · intro p
      have h1 := (key p).2.1
      have h2 := countP_put (holdsW fio p) _ _ _ t' hj
      have h3 := h.wr p
      simp only; omega
    · intro p u hu h1 h2
      obtain ⟨-, -, k3, k4⟩ := key p
      simp only at hu ⊢
      obtain ⟨i, hi⟩ := List.mem_iff_getElem?.mp hu
      rw [List.getElem?_set] at hi
      split at hi
      · split at hi
        · cases hi
          obtain ⟨a1, a2, a3⟩ := k3 h1 h2
          rcases a2 with a2 | a2
          · rw [a3]; exact h.excl p t (List.mem_of_getElem? hj) a1 a2
          · rw [a3]; exact a2
        · cases hi
      · have hz := h.excl p u (List.mem_of_getElem? hi) h1 h2
        have : s.sh.writer p = true := by
          have hc := countP_ge (holdsW fio p) _ _ _ hi
          rw [← h.wr p, h1] at hc
          cases hh : s.sh.writer p
          · rw [hh] at hc; simp at hc
          · rfl
        rcases Nat.lt_or_ge (s.sh.readers p) (sh'.readers p) with hlt | hge
        · rw [k4 hlt] at this; cases this
        · omega

theorem start_linv (H : Bytes → Bytes) (fio : FileIO) (ti : TorInfo) (fs : FS.State) (calls : List Call) : LInv fio (init H ti fs calls) := by
  have hno : ∀ c, (start H ti c).pc.isBusy = false ∧ (start H ti c).pc.isMove = false := by
    intro c
    cases c with
    | read i buf => unfold start startRead; simp only; split <;> exact ⟨rfl, rfl⟩
    | write i d spare =>
      unfold start startWrite; simp only
      split
      · split
        · split <;> exact ⟨rfl, rfl⟩
        all_goals exact ⟨rfl, rfl⟩
      all_goals exact ⟨rfl, rfl⟩
  unfold init
  refine ⟨?_, ?_, ?_, ?_⟩
  · intro t ht
    obtain ⟨c, -, rfl⟩ := List.mem_map.mp ht
    refine ⟨?_, ?_, ?_⟩
    · intro h; have := (hno c).1; rw [h] at this; cases this
    · intro h; rw [(hno c).1] at h; cases h
    · intro k l rest h; have := (hno c).1; rw [h] at this; cases this
  · intro p
    simp only
    symm
    rw [List.countP_eq_zero]
    intro t ht
    obtain ⟨c, -, rfl⟩ := List.mem_map.mp ht
    simp [holdsR, (hno c).2]
  · intro p
    simp only [Bool.toNat_false]
    symm
    rw [List.countP_eq_zero]
    intro t ht
    obtain ⟨c, -, rfl⟩ := List.mem_map.mp ht
    simp [holdsW, (hno c).1]
  · intro p t ht _ _; rfl

/-! ### no deadlock -/

def Pc.isDone : Pc → Bool
  | .done _ => true
  | _ => false

theorem move_steps {fio : FileIO} {faulty : Bool} (s : Shared) (t : Th) (hw : WF fio t) (hm : t.pc.isMove = true) :
    ∃ s' t', TStep fio faulty s t s' t' := by
  cases hpc : t.pc with
  | move k =>
    obtain ⟨l, rest, e, hl, he⟩ := hw.busy (by rw [hpc]; rfl)
    rcases Int.lt_or_le l.loc.seekAmnt 0 with hneg | hpos
    · exact ⟨_, _, .negative s t l rest e k hpc hl he (.inl hneg)⟩
    · cases hc : s.fs e.base.localPath with
      | none => exact ⟨_, _, .negative s t l rest e k hpc hl he (.inr hc)⟩
      | some c =>
        rcases Nat.lt_or_ge k l.loc.readAmnt.toNat with hlt | hge
        · cases hwr : t.write
          · rcases Nat.lt_or_ge (l.loc.seekAmnt.toNat + k) c.length with h1 | h1
            · exact ⟨_, _, .get s t l rest e k 1 c hpc hl he hwr hc hpos (by omega) (by omega) (by omega)⟩
            · exact ⟨_, _, .eof s t l rest e k c hpc hl he hwr hc hpos hlt h1⟩
          · exact ⟨_, _, .put s t l rest e k 1 c hpc hl he hwr hc hpos (by omega) (by omega)⟩
        · exact ⟨_, _, .release s t l rest e k c hpc hl he hc hpos hge⟩
  | top => rw [hpc] at hm; cases hm
  | pending => rw [hpc] at hm; cases hm
  | done r => rw [hpc] at hm; cases hm

theorem exists_of_countP {α : Type} {f : α → Bool} {l : List α} (h : 0 < l.countP f) : ∃ (j : Nat) (a : α), l[j]? = some a ∧ f a = true := by
  obtain ⟨a, ha, hf⟩ := List.countP_pos_iff.mp h
  obtain ⟨j, hj⟩ := List.mem_iff_getElem?.mp ha
  exact ⟨j, a, hj, hf⟩

theorem LInv.progress {fio : FileIO} {faulty : Bool} {s : St} (h : LInv fio s) (t : Th) (ht : t ∈ s.ths) (hd : t.pc.isDone = false) :
    ∃ s', Step fio faulty s s' := by
  have lift : ∀ (u : Th), u ∈ s.ths → (∃ s' u', TStep fio faulty s.sh u s' u') → ∃ s', Step fio faulty s s' := by
    intro u hu ⟨s', u', hx⟩
    obtain ⟨j, hj⟩ := List.mem_iff_getElem?.mp hu
    exact ⟨_, .mk s j u u' s' hj hx⟩
  have mv : ∀ (u : Th), u ∈ s.ths → u.pc.isMove = true → ∃ s', Step fio faulty s s' :=
    fun u hu hm => lift u hu (move_steps _ u (h.wf u hu) hm)
  -- a waiting writer, or a reader that keeps it out, can go on
  have pend : ∀ (u : Th) (p : Bytes), u ∈ s.ths → holdsW fio p u = true → ∃ s', Step fio faulty s s' := by
    intro u p hu hh
    cases hpc : u.pc with
    | move k => exact mv u hu (by rw [hpc]; rfl)
    | pending =>
      obtain ⟨l, rest, e, hl, he⟩ := (h.wf u hu).busy (by rw [hpc]; rfl)
      rcases Nat.eq_zero_or_pos (s.sh.readers e.base.localPath) with h0 | h0
      · exact lift u hu ⟨_, _, .lock s.sh u l rest e hpc hl he h0⟩
      · rw [h.rd] at h0
        obtain ⟨j, v, hv, hf⟩ := exists_of_countP h0
        refine mv v (List.mem_of_getElem? hv) ?_
        unfold holdsR at hf
        simp only [Bool.and_eq_true] at hf
        exact hf.1.2
    | top => unfold holdsW at hh; rw [hpc] at hh; simp [Pc.isBusy] at hh
    | done r => unfold holdsW at hh; rw [hpc] at hh; simp [Pc.isBusy] at hh
  cases hpc : t.pc with
  | move k => exact mv t ht (by rw [hpc]; rfl)
  | pending =>
    obtain ⟨l, rest, e, hl, he⟩ := (h.wf t ht).busy (by rw [hpc]; rfl)
    refine pend t e.base.localPath ht ?_
    unfold holdsW headPath
    rw [(h.wf t ht).pend hpc, hpc, hl]; simp only; rw [he]; simp [Pc.isBusy]
  | done r => rw [hpc] at hd; cases hd
  | top =>
    cases hl : t.ls with
    | nil => exact lift t ht ⟨_, _, .finish s.sh t hpc hl⟩
    | cons l rest =>
      by_cases hs : sliceOk t l
      · cases he : fio.torInfo.flist[l.fidx]? with
        | none => exact lift t ht ⟨_, _, .noEntry s.sh t l rest hpc hl hs he⟩
        | some e =>
          by_cases ho : e.base.localPath ∈ fio.opened
          · cases hwr : s.sh.writer e.base.localPath with
            | false =>
              cases hw : t.write
              · exact lift t ht ⟨_, _, .rlock s.sh t l rest e hpc hl hs he ho hw hwr⟩
              · exact lift t ht ⟨_, _, .announce s.sh t l rest e hpc hl hs he ho hw hwr⟩
            | true =>
              have := h.wr e.base.localPath
              rw [hwr] at this
              obtain ⟨j, v, hv, hf⟩ := exists_of_countP (by rw [← this]; decide)
              exact pend v _ (List.mem_of_getElem? hv) hf
          · exact lift t ht ⟨_, _, .noPath s.sh t l rest e hpc hl hs he ho⟩
      · exact lift t ht ⟨_, _, .slice s.sh t l rest hpc hl hs⟩

/-! ### termination -/

/-- steps that the locations can still take -/
def weight : List PieceLocation → Nat
  | [] => 0
  | l :: ls => l.loc.readAmnt.toNat + 3 + weight ls

/-- bound on the number of steps of a goroutine -/
def Th.measure (t : Th) : Nat :=
  match t.pc with
  | .top => 1 + weight t.ls
  | .pending => weight t.ls
  | .move k => weight t.ls - 1 - k
  | .done _ => 0

theorem TStep.measure {fio : FileIO} {faulty : Bool} {s s' : Shared} {t t' : Th} (h : TStep fio faulty s t s' t') (hw : WF fio t) :
    t'.measure < t.measure := by
  cases h with
  | finish hpc hl => unfold Th.measure; rw [hpc]; simp only; omega
  | slice l rest hpc hl hb => unfold Th.measure; rw [hpc]; simp only; omega
  | noEntry l rest hpc hl hb he => unfold Th.measure; rw [hpc]; simp only; omega
  | noPath l rest e hpc hl hb he ho => unfold Th.measure; rw [hpc]; simp only; omega
  | rlock l rest e hpc hl hb he ho hwr hfree => unfold Th.measure; rw [hpc, hl]; simp only [weight]; omega
  | announce l rest e hpc hl hb he ho hwr hfree => unfold Th.measure; rw [hpc, hl]; simp only [weight]; omega
  | lock l rest e hpc hl he hfree => unfold Th.measure; rw [hpc, hl]; simp only [weight]; omega
  | get l rest e k m c hpc hl he hwr hc hs0 hm hk hlen => unfold Th.measure; rw [hpc, hl]; simp only [weight]; omega
  | put l rest e k m c hpc hl he hwr hc hs0 hm hk => unfold Th.measure; rw [hpc, hl]; simp only [weight]; omega
  | eof l rest e k c hpc hl he hwr hc hs0 hk hlen =>
    unfold Th.measure; rw [hpc, hl]; simp only [weight]; omega
  | negative l rest e k hpc hl he hs0 =>
    have := hw.amnt k l rest hpc hl
    unfold Th.measure; rw [hpc, hl]; simp only [weight]; omega
  | fail l rest e k hf hpc hl he =>
    have := hw.amnt k l rest hpc hl
    unfold Th.measure; rw [hpc, hl]; simp only [weight]; omega
  | release l rest e k c hpc hl he hc hs0 hk =>
    have := hw.amnt k l rest hpc hl
    unfold Th.measure; rw [hpc, hl]; simp only [weight]; omega

def St.measure (s : St) : Nat := (s.ths.map Th.measure).sum

theorem sum_set {α : Type} (f : α → Nat) (l : List α) (j : Nat) (a b : α) (h : l[j]? = some a) (hlt : f b < f a) :
    ((l.set j b).map f).sum < (l.map f).sum := by
  induction l generalizing j with
  | nil => simp at h
  | cons x xs ih =>
    cases j with
    | zero => simp at h; subst h; simp only [List.set_cons_zero, List.map_cons, List.sum_cons]; omega
    | succ j =>
      simp only [List.getElem?_cons_succ] at h
      have := ih j h
      simp only [List.set_cons_succ, List.map_cons, List.sum_cons]; omega

theorem LInv.measure {fio : FileIO} {faulty : Bool} {s s' : St} (h : LInv fio s) (hs : Step fio faulty s s') : s'.measure < s.measure := by
  cases hs with
  | mk j t t' sh' hj ht => exact sum_set _ _ _ _ _ hj (ht.measure (h.wf t (List.mem_of_getElem? hj)))

/-- all goroutines have returned -/
def AllDone (s : St) : Prop := ∀ t ∈ s.ths, ∃ r, t.pc = .done r

theorem LInv.inevitable {fio : FileIO} {faulty : Bool} {s : St} (h : LInv fio s) : Inevitable (Step fio faulty) AllDone s := by
  generalize hn : s.measure = n
  induction n using Nat.strongRecOn generalizing s with
  | ind n ih =>
    by_cases hall : AllDone s
    · exact .now s hall
    · refine .next s ?_ ?_
      · apply Classical.byContradiction
        intro hno
        apply hall
        intro t ht
        cases hpc : t.pc with
        | done r => exact ⟨r, rfl⟩
        | top => exact absurd (h.progress t ht (by rw [hpc]; rfl)) hno
        | pending => exact absurd (h.progress t ht (by rw [hpc]; rfl)) hno
        | move k => exact absurd (h.progress t ht (by rw [hpc]; rfl)) hno
      · intro s' hs
        have := h.measure hs
        exact ih s'.measure (by omega) (h.step hs) rfl

end Verif.FileConc
