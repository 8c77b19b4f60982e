import Verif.Model.FileEnv
import Verif.Lemmas.FileConc
import Verif.Lemmas.FileConcLocks
/-
Lemmas for C128: what a step of a goroutine does whatever the contents of the files are.
-/
set_option autoImplicit false

namespace Verif.FileEnv
open Verif.Files Verif.FS Verif.FileIO Verif.Layout Verif.Lts
open Verif.FileConc hiding St Step init

/-- the effect of a step, without any assumption about the files -/
inductive Eff (faulty : Bool) (files : List EntryBase) (a n : Nat) (s : Shared) (t : Th) (s' : Shared) (t' : Th) : Prop
  | quiet (h2 : s'.fs = s.fs) (h3 : t'.buf = t.buf) (h4 : prog t' ≤ prog t)
      (h5 : ∀ e, t'.pc = .done (.err e) → faulty = true ∨ ∃ (k : Nat) (f : EntryBase), files[k]? = some f ∧
        (s.fs f.localPath = none ∨ t.write = false ∧ ∃ c, s.fs f.localPath = some c ∧ c.length < f.length.toNat))
  | got (m k x : Nat) (f : EntryBase) (c : Bytes) (hw : t.write = false) (h2 : s' = s) (h4 : prog t' = prog t + m) (h5 : prog t' ≤ n)
      (hf : files[k]? = some f) (hc : s.fs f.localPath = some c) (h6 : startPos (Files.lens files) k + x = a + prog t)
      (h7 : a + prog t + m ≤ startPos (Files.lens files) (k + 1)) (h8 : x + m ≤ c.length)
      (h3 : t'.buf = splice t.buf (prog t) (range c x m)) (h9 : ∀ r, t'.pc ≠ .done r)
  | put (m k x : Nat) (f : EntryBase) (c : Bytes) (hw : t.write = true) (h3 : t'.buf = t.buf) (h4 : prog t' = prog t + m) (h5 : prog t' ≤ n)
      (hm : 0 < m) (hf : files[k]? = some f) (h6 : startPos (Files.lens files) k + x = a + prog t)
      (h7 : a + prog t + m ≤ startPos (Files.lens files) (k + 1))
      (h2 : s'.fs = s.fs.set f.localPath (writeAt c x (range t.buf (prog t) m))) (h9 : ∀ r, t'.pc ≠ .done r)

theorem eff {fio : FileIO} {faulty : Bool} {files : List EntryBase} {a n : Nat} {s s' : Shared} {t t' : Th}
    (hb : ∀ k : Nat, (fio.torInfo.flist[k]?).map Entry.base = files[k]?)
    (hop : ∀ (k : Nat) (e : Entry), fio.torInfo.flist[k]? = some e → e.base.localPath ∈ fio.opened)
    (hp : Pos (Files.lens files) a n t) (hs : TStep fio faulty s t s' t') :
    Pos (Files.lens files) a n t' ∧ t'.write = t.write ∧ Eff faulty files a n s t s' t' := by
  obtain ⟨consec, fits, mv, pend, fin⟩ := hp
  have head : ∀ l rest, t.ls = l :: rest → ∃ (sk r : Nat) (e : Entry), l = ⟨l.fidx, ⟨(sk : Int), (r : Int)⟩⟩ ∧
      fio.torInfo.flist[l.fidx]? = some e ∧ files[l.fidx]? = some e.base ∧
      startPos (Files.lens files) l.fidx + sk = a + t.off ∧ a + t.off + r ≤ startPos (Files.lens files) (l.fidx + 1) ∧
      startPos (Files.lens files) (l.fidx + 1) = startPos (Files.lens files) l.fidx + e.base.length.toNat ∧ t.off + r ≤ n ∧
      Consec (Files.lens files) (a + (t.off + r)) rest (a + n) := by
    intro l rest hl
    rw [hl] at consec
    generalize hx : a + t.off = x at consec
    generalize hy : a + n = y at consec
    cases consec with
    | cons _ _ k sk r _ e1 e0 e2 hr =>
      have hk : k < files.length := by unfold Files.lens at e0; rw [List.length_map] at e0; exact e0
      have h1 := hb k
      rw [List.getElem?_eq_getElem hk] at h1
      cases he : fio.torInfo.flist[k]? with
      | none => rw [he] at h1; cases h1
      | some e =>
        rw [he] at h1
        simp only [Option.map_some, Option.some.injEq] at h1
        have hst := startPos_succ (Files.lens files) k e.base.length.toNat (by
          unfold Files.lens; rw [List.getElem?_map, List.getElem?_eq_getElem hk, h1]; rfl)
        have := hr.le
        refine ⟨sk, r, e, rfl, rfl, by simp only; rw [List.getElem?_eq_getElem hk, h1], by simp only; omega, by simp only; omega, hst, by omega, ?_⟩
        rw [show a + (t.off + r) = x + r by omega]; exact hr
  cases hs with
  | finish hpc hl =>
    have : t.off = n := by
      rw [hl] at consec
      generalize hx : a + t.off = x at consec
      generalize hy : a + n = y at consec
      cases consec; omega
    refine ⟨⟨consec, fits, by simp, by simp, ?_⟩, rfl, .quiet rfl rfl (by simp [prog, hpc]) (by simp)⟩
    intro r hr
    simp only [Pc.done.injEq] at hr
    subst hr
    exact .inr ⟨by rw [this], this⟩
  | slice l rest hpc hl hbad =>
    obtain ⟨sk, r, e, hleq, -, -, -, -, -, h1, -⟩ := head l rest hl
    exfalso
    apply hbad
    unfold sliceOk
    rw [hleq]; simp only; omega
  | noEntry l rest hpc hl hok he =>
    obtain ⟨sk, r, e, hleq, h1, -⟩ := head l rest hl
    rw [he] at h1; cases h1
  | noPath l rest e hpc hl hok he ho => exact absurd (hop _ e he) ho
  | rlock l rest e hpc hl hok he ho hw hfree =>
    refine ⟨⟨consec, fits, ?_, by simp, by simp⟩, rfl, .quiet rfl rfl (by simp [prog, hpc]) (by simp)⟩
    intro k hk
    exact ⟨l, rest, hl, by simp at hk; omega⟩
  | announce l rest e hpc hl hok he ho hw hfree =>
    refine ⟨⟨consec, fits, by simp, ?_, by simp⟩, rfl, .quiet rfl rfl (by simp [prog, hpc]) (by simp)⟩
    intro _
    exact ⟨hw, by simp [hl]⟩
  | lock l rest e hpc hl he hfree =>
    refine ⟨⟨consec, fits, ?_, by simp, by simp⟩, rfl, .quiet rfl rfl (by simp [prog, hpc]) (by simp)⟩
    intro k hk
    exact ⟨l, rest, hl, by simp at hk; omega⟩
  | get l rest e k m c hpc hl he hw hc hs0 hm hk hlen =>
    obtain ⟨sk, r, e', hleq, h1, h2, h3, h4, h5, h6, h7⟩ := head l rest hl
    rw [he] at h1; cases h1
    rw [hleq] at hlen hk ⊢
    simp only [Int.toNat_natCast] at hlen hk ⊢
    have hpr : prog t = t.off + k := by unfold prog; rw [hpc]
    have hsp : overwrite t.buf (t.off + k) ((c.drop (sk + k)).take m) = splice t.buf (prog t) (range c (sk + k) m) := by
      rw [overwrite_splice, hpr]; rfl
    refine ⟨⟨consec, ?_, ?_, by simp, by simp⟩, trivial,
      .got m l.fidx (sk + k) e.base c hw rfl (by rw [hpr]; simp only [prog]; omega) (by simp only [prog]; omega) h2 hc (by omega) (by omega) (by omega)
        hsp (by simp)⟩
    · simp only
      rw [hsp, splice_length _ _ _ (by rw [range_length _ _ _ (by omega)]; omega)]; exact fits
    · intro k' hk'
      simp only [Pc.move.injEq] at hk'
      exact ⟨l, rest, hl, by rw [hleq]; simp only [Int.toNat_natCast]; omega⟩
  | put l rest e k m c hpc hl he hw hc hs0 hm hk =>
    obtain ⟨sk, r, e', hleq, h1, h2, h3, h4, h5, h6, h7⟩ := head l rest hl
    rw [he] at h1; cases h1
    rw [hleq] at hk ⊢
    simp only [Int.toNat_natCast] at hk ⊢
    have hpr : prog t = t.off + k := by unfold prog; rw [hpc]
    refine ⟨⟨consec, fits, ?_, by simp, by simp⟩, trivial,
      .put m l.fidx (sk + k) e.base c hw rfl (by rw [hpr]; simp only [prog]; omega) (by simp only [prog]; omega) hm h2 (by omega) (by omega) ?_ (by simp)⟩
    · intro k' hk'
      simp only [Pc.move.injEq] at hk'
      exact ⟨l, rest, hl, by rw [hleq]; simp only [Int.toNat_natCast]; omega⟩
    · rw [hpr]; rfl
  | eof l rest e k c hpc hl he hw hc hs0 hk hlen =>
    obtain ⟨sk, r, e', hleq, h1, h2, h3, h4, h5, h6, h7⟩ := head l rest hl
    rw [he] at h1; cases h1
    rw [hleq] at hlen hk
    simp only [Int.toNat_natCast] at hlen hk
    refine ⟨⟨consec, fits, by simp, by simp, ?_⟩, rfl, .quiet (release_fs _ _ _) rfl (by simp [prog, hpc]) ?_⟩
    · intro r hr
      simp only [Pc.done.injEq] at hr
      exact .inl ⟨_, hr.symm⟩
    · intro _ _
      exact .inr ⟨_, _, h2, .inr ⟨hw, c, hc, by omega⟩⟩
  | negative l rest e k hpc hl he hs0 =>
    obtain ⟨sk, r, e', hleq, h1, h2, h3, h4, h5, h6, h7⟩ := head l rest hl
    rw [he] at h1; cases h1
    refine ⟨⟨consec, fits, by simp, by simp, ?_⟩, rfl, .quiet (release_fs _ _ _) rfl (by simp [prog, hpc]) ?_⟩
    · intro r hr
      simp only [Pc.done.injEq] at hr
      exact .inl ⟨_, hr.symm⟩
    · intro _ _
      refine .inr ⟨_, _, h2, .inl ?_⟩
      rcases hs0 with h0 | h0
      · rw [hleq] at h0; simp only at h0; omega
      · exact h0
  | fail l rest e k hf hpc hl he =>
    refine ⟨⟨consec, fits, by simp, by simp, ?_⟩, rfl, .quiet (release_fs _ _ _) rfl (by simp [prog, hpc]) (fun _ _ => .inl hf)⟩
    intro r hr
    simp only [Pc.done.injEq] at hr
    exact .inl ⟨_, hr.symm⟩
  | release l rest e k c hpc hl he hc hs0 hk =>
    obtain ⟨sk, r, e', hleq, h1, h2, h3, h4, h5, h6, h7⟩ := head l rest hl
    obtain ⟨l', rest', hl', hk'⟩ := mv k hpc
    rw [hl] at hl'; cases hl'
    rw [hleq] at hk hk' ⊢
    simp only [Int.toNat_natCast] at hk hk' ⊢
    exact ⟨⟨h7, fits, by simp, by simp, by simp⟩, trivial, .quiet (release_fs _ _ _) rfl (by simp only [prog, hpc]; omega) (by simp)⟩

/-- the last state of the files so far is the present one -/
theorem past_last {fio : FileIO} {faulty : Bool} {s0 s : St} (h0 : ∃ p, s0.past = p ++ [s0.st.sh.fs]) (h : Reach (Step fio faulty) s0 s) :
    ∃ p, s.past = p ++ [s.st.sh.fs] := by
  induction h with
  | refl => exact h0
  | tail s' s'' _ hs _ => cases hs with
    | work st' h => exact ⟨_, rfl⟩
    | other fs => exact ⟨_, rfl⟩

/-- the locks are not touched by other programs -/
theorem linv_other {fio : FileIO} {s : FileConc.St} (h : LInv fio s) (fs : FS.State) : LInv fio ⟨{ s.sh with fs := fs }, s.ths⟩ :=
  ⟨h.wf, h.rd, h.wr, h.excl⟩

/-- locks and the number of steps -/
theorem linv_reach (H : Bytes → Bytes) {fio : FileIO} {ti : TorInfo} {faulty : Bool} {fs : FS.State} {calls : List Call} {s : St}
    (h : Reach (Step fio faulty) (init H ti fs calls) s) :
    LInv fio s.st ∧ s.steps + s.st.measure ≤ (init H ti fs calls).st.measure := by
  induction h with
  | refl => exact ⟨start_linv H fio ti fs calls, by simp [init]⟩
  | tail s' s'' _ hs ih =>
    obtain ⟨h1, h2⟩ := ih
    cases hs with
    | work st' h => exact ⟨h1.step h, by have := h1.measure h; simp only; omega⟩
    | other fs => exact ⟨linv_other h1 fs, h2⟩

end Verif.FileEnv
