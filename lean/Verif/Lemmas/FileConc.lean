import Verif.Model.FileConc
import Verif.Lemmas.FileIO
import Verif.Spec.Lts
/-
Lemmas about concurrent ReadPiece / WritePiece calls: the effect of one step on the concatenated files, the locks, progress.
-/
set_option autoImplicit false

namespace Verif.FileConc
open Verif.Files Verif.FS Verif.FileIO Verif.Layout Verif.Lts

/-- number of bytes of the piece that have been transferred -/
def prog (t : Th) : Nat := match t.pc with | .move k => t.off + k | _ => t.off

/-- a goroutine in the middle of a call for the bytes `[a, a + n)` of the concatenated files -/
structure Pos (lns : List Nat) (a n : Nat) (t : Th) : Prop where
  consec : Consec lns (a + t.off) t.ls (a + n)
  fits : n ≤ t.buf.length
  mv : ∀ k, t.pc = .move k → ∃ l rest, t.ls = l :: rest ∧ k ≤ l.loc.readAmnt.toNat
  pend : t.pc = .pending → t.write = true ∧ t.ls ≠ []
  fin : ∀ r, t.pc = .done r → (∃ e, r = .err e) ∨ r = .ok n ∧ t.off = n

theorem consec_total {ls : List Nat} {a b : Nat} {locs : List PieceLocation} (h : Consec ls a locs b) :
    b = a ∨ b ≤ total ls := by
  induction h with
  | nil a => exact .inl rfl
  | cons a b k s r rest e1 e0 e2 hr ih =>
    have := startPos_le_total ls (k + 1)
    rcases ih with h | h
    · right; omega
    · exact .inr h

/-- the effect of a step -/
inductive Effect (faulty : Bool) (a n : Nat) (s : Shared) (cs : List Bytes) (t : Th) (s' : Shared) (cs' : List Bytes) (t' : Th) : Prop
  | silent (h1 : cs' = cs) (h2 : s'.fs = s.fs) (h3 : t'.buf = t.buf) (h4 : prog t' = prog t)
  | failed (hf : faulty = true) (h1 : cs' = cs) (h2 : s'.fs = s.fs) (h3 : t'.buf = t.buf) (h4 : prog t' ≤ prog t) (h5 : t'.pc = .done (.err .os))
  | got (m : Nat) (hm : 0 < m) (hx : ∃ k l rest, t.pc = .move k ∧ t.ls = l :: rest ∧ 0 < l.loc.readAmnt.toNat) (hw : t.write = false) (h1 : cs' = cs) (h2 : s' = s) (h4 : prog t' = prog t + m) (h5 : prog t' ≤ n)
      (h3 : t'.buf = splice t.buf (prog t) (range cs.flatten (a + prog t) m)) (h6 : a + prog t + m ≤ cs.flatten.length)
  | put (m : Nat) (hm : 0 < m) (hx : ∃ k l rest, t.pc = .move k ∧ t.ls = l :: rest ∧ 0 < l.loc.readAmnt.toNat) (hw : t.write = true) (h3 : t'.buf = t.buf) (h4 : prog t' = prog t + m) (h5 : prog t' ≤ n)
      (h1 : cs'.flatten = splice cs.flatten (a + prog t) (range t.buf (prog t) m)) (h6 : a + prog t + m ≤ cs.flatten.length)

theorem OnDisk.put {fs : FS.State} {fio : FileIO} {files : List EntryBase} {cs : List Bytes} (h : OnDisk fs fio files cs)
    (hd : (files.map EntryBase.localPath).Nodup) {k : Nat} {f : EntryBase} {c d : Bytes} (hf : files[k]? = some f) (hc : cs[k]? = some c)
    (hl : d.length = c.length) : OnDisk (fs.set f.localPath d) fio files (cs.set k d) := by
  have hset := set_lens cs k c d hc hl
  refine ⟨h.flist, by rw [hset]; exact h.lens, ?_⟩
  intro k' f' c' hf' hc'
  rw [List.getElem?_set] at hc'
  by_cases hkk : k = k'
  · subst hkk
    rw [if_pos rfl, if_pos (List.getElem?_eq_some_iff.mp hc).1] at hc'
    cases hc'
    rw [hf] at hf'; cases hf'
    exact ⟨by simp, (h.disk k f c hf hc).2⟩
  · rw [if_neg hkk] at hc'
    obtain ⟨g1, g2⟩ := h.disk k' f' c' hf' hc'
    refine ⟨?_, g2⟩
    unfold State.set
    rw [if_neg, g1]
    intro heq
    apply hkk
    have hk1 : k < (files.map EntryBase.localPath).length := by
      rw [List.length_map]; exact (List.getElem?_eq_some_iff.mp hf).1
    have q1 : (files.map EntryBase.localPath)[k]? = some f.localPath := by rw [List.getElem?_map, hf]; rfl
    have q2 : (files.map EntryBase.localPath)[k']? = some f.localPath := by
      rw [List.getElem?_map, hf', ← heq]; rfl
    exact (List.getElem?_inj hk1 hd).mp (q1.trans q2.symm)

theorem release_fs (s : Shared) (w : Bool) (p : Bytes) : (s.release w p).fs = s.fs := by
  unfold Shared.release; split <;> rfl

theorem effect {fio : FileIO} {faulty : Bool} {files : List EntryBase} {a n : Nat} {s s' : Shared} {t t' : Th} {cs : List Bytes}
    (hd : (files.map EntryBase.localPath).Nodup) (h : OnDisk s.fs fio files cs) (hp : Pos (Files.lens files) a n t)
    (hs : TStep fio faulty s t s' t') :
    ∃ cs', OnDisk s'.fs fio files cs' ∧ Pos (Files.lens files) a n t' ∧ t'.write = t.write ∧ (∀ r, t.pc ≠ .done r) ∧
      (∀ e, t'.pc = .done (.err e) → faulty = true) ∧ Effect faulty a n s cs t s' cs' t' := by
  have hpos := hp
  obtain ⟨consec, fits, mv, pend, fin⟩ := hp
  have head : ∀ l rest, t.ls = l :: rest → ∃ (sk r : Nat) (e : Entry) (c : Bytes), l = ⟨l.fidx, ⟨(sk : Int), (r : Int)⟩⟩ ∧
      fio.torInfo.flist[l.fidx]? = some e ∧ e.base.localPath ∈ fio.opened ∧ s.fs e.base.localPath = some c ∧ files[l.fidx]? = some e.base ∧
      cs[l.fidx]? = some c ∧
      startPos (cs.map List.length) l.fidx + sk = a + t.off ∧ sk + r ≤ c.length ∧ t.off + r ≤ n ∧ a + t.off + r ≤ cs.flatten.length ∧
      Consec (Files.lens files) (a + (t.off + r)) rest (a + n) := by
    intro l rest hl
    rw [hl] at consec
    generalize hx : a + t.off = x at consec
    generalize hy : a + n = y at consec
    cases consec with
    | cons _ _ k sk r _ e1 e0 e2 hr =>
      obtain ⟨e, c, h1, h2, h3, h4, h5, h6⟩ := h.get k e0
      have hst := startPos_succ (cs.map List.length) k c.length (by rw [List.getElem?_map, h2]; rfl)
      rw [← h.lens] at e1 e2
      have := hr.le
      have htot := startPos_le_total (cs.map List.length) (k + 1)
      refine ⟨sk, r, e, c, rfl, h1, h4, h3, h5, h2, by simp only; omega, by omega, by omega, ?_, ?_⟩
      · rw [List.length_flatten]; unfold total at htot; omega
      · rw [show a + (t.off + r) = x + r by omega]; exact hr
  cases hs with
  | finish hpc hl =>
    have : t.off = n := by
      rw [hl] at consec
      generalize hx : a + t.off = x at consec
      generalize hy : a + n = y at consec
      cases consec; omega
    refine ⟨cs, h, ⟨consec, fits, by simp, by simp, ?_⟩, rfl, by simp [hpc], by simp, .silent rfl rfl rfl (by simp [prog, hpc])⟩
    intro r hr
    simp only [Pc.done.injEq] at hr
    subst hr
    exact .inr ⟨by rw [this], this⟩
  | slice l rest hpc hl hbad =>
    obtain ⟨sk, r, e, c, hleq, -, -, -, -, -, -, -, h1, -, -⟩ := head l rest hl
    exfalso
    apply hbad
    unfold sliceOk
    rw [hleq]; simp only; omega
  | noEntry l rest hpc hl hok he =>
    obtain ⟨sk, r, e, c, hleq, h1, -⟩ := head l rest hl
    rw [he] at h1; cases h1
  | noPath l rest e hpc hl hok he ho =>
    obtain ⟨sk, r, e', c, hleq, h1, h2, -⟩ := head l rest hl
    rw [he] at h1; cases h1
    exact absurd h2 ho
  | rlock l rest e hpc hl hok he ho hw hfree =>
    refine ⟨cs, h, ⟨consec, fits, ?_, by simp, by simp⟩, rfl, by simp [hpc], by simp, .silent rfl rfl rfl (by simp [prog, hpc])⟩
    intro k hk
    exact ⟨l, rest, hl, by simp at hk; omega⟩
  | announce l rest e hpc hl hok he ho hw hfree =>
    refine ⟨cs, h, ⟨consec, fits, by simp, ?_, by simp⟩, rfl, by simp [hpc], by simp, .silent rfl rfl rfl (by simp [prog, hpc])⟩
    intro _
    exact ⟨hw, by simp [hl]⟩
  | lock l rest e hpc hl he hfree =>
    refine ⟨cs, h, ⟨consec, fits, ?_, by simp, by simp⟩, rfl, by simp [hpc], by simp, .silent rfl rfl rfl (by simp [prog, hpc])⟩
    intro k hk
    exact ⟨l, rest, hl, by simp at hk; omega⟩
  | get l rest e k m c hpc hl he hw hc hs0 hm hk hlen =>
    obtain ⟨sk, r, e', c', hleq, h1, h2, h3, h4, h5, h6, h7, h8, h9, h10⟩ := head l rest hl
    rw [he] at h1; cases h1
    rw [hc] at h3; cases h3
    rw [hleq] at hlen hk ⊢
    simp only [Int.toNat_natCast] at hlen hk ⊢
    have hsp : overwrite t.buf (t.off + k) ((c.drop (sk + k)).take m) = splice t.buf (prog t) (range cs.flatten (a + prog t) m) := by
      unfold prog; rw [hpc]; simp only
      rw [overwrite_splice]
      congr 1
      rw [show (c.drop (sk + k)).take m = range c (sk + k) m from rfl, ← range_flatten cs l.fidx c h5 (sk + k) m (by omega)]
      congr 1; omega
    have hpr : prog t = t.off + k := by unfold prog; rw [hpc]
    refine ⟨cs, h, ⟨consec, ?_, ?_, by simp, by simp⟩, trivial, by simp [hpc], by simp,
      .got m hm ⟨k, l, rest, hpc, hl, by rw [hleq]; simp only [Int.toNat_natCast]; omega⟩ hw rfl rfl (by rw [hpr]; simp only [prog]; omega) (by simp only [prog]; omega) hsp (by omega)⟩
    · simp only
      rw [hsp, splice_length _ _ _ (by rw [range_length _ _ _ (by omega)]; omega)]; exact fits
    · intro k' hk'
      simp only [Pc.move.injEq] at hk'
      exact ⟨l, rest, hl, by rw [hleq]; simp only [Int.toNat_natCast]; omega⟩
  | put l rest e k m c hpc hl he hw hc hs0 hm hk =>
    obtain ⟨sk, r, e', c', hleq, h1, h2, h3, h4, h5, h6, h7, h8, h9, h10⟩ := head l rest hl
    rw [he] at h1; cases h1
    rw [hc] at h3; cases h3
    rw [hleq] at hk ⊢
    simp only [Int.toNat_natCast] at hk ⊢
    have hpr : prog t = t.off + k := by unfold prog; rw [hpc]
    have hrl : (range t.buf (t.off + k) m).length = m := range_length _ _ _ (by omega)
    rw [show (t.buf.drop (t.off + k)).take m = range t.buf (t.off + k) m from rfl, writeAt_splice _ _ _ (by omega)]
    refine ⟨cs.set l.fidx (splice c (sk + k) (range t.buf (t.off + k) m)),
      OnDisk.put h hd h4 h5 (splice_length _ _ _ (by omega)), ⟨consec, fits, ?_, by simp, by simp⟩, trivial, by simp [hpc], by simp,
      .put m hm ⟨k, l, rest, hpc, hl, by rw [hleq]; simp only [Int.toNat_natCast]; omega⟩ hw rfl (by rw [hpr]; simp only [prog]; omega) (by simp only [prog]; omega) ?_ (by omega)⟩
    · intro k' hk'
      simp only [Pc.move.injEq] at hk'
      exact ⟨l, rest, hl, by rw [hleq]; simp only [Int.toNat_natCast]; omega⟩
    · rw [flatten_set cs l.fidx c h5 (sk + k) _ (by omega), hpr]
      congr 1; omega
  | eof l rest e k c hpc hl he hw hc hs0 hk hlen =>
    obtain ⟨sk, r, e', c', hleq, h1, h2, h3, h4, h5, h6, h7, h8, h9, h10⟩ := head l rest hl
    rw [he] at h1; cases h1
    rw [hc] at h3; cases h3
    rw [hleq] at hlen hk
    simp only [Int.toNat_natCast] at hlen hk
    omega
  | negative l rest e k hpc hl he hs0 =>
    obtain ⟨sk, r, e', c', hleq, h1, h2, h3, h4, h5, h6, h7, h8, h9, h10⟩ := head l rest hl
    rw [he] at h1; cases h1
    rcases hs0 with h0 | h0
    · rw [hleq] at h0; simp only at h0; omega
    · rw [h0] at h3; cases h3
  | fail l rest e k hf hpc hl he =>
    refine ⟨cs, by rw [release_fs]; exact h, ⟨consec, fits, by simp, by simp, ?_⟩, rfl, by simp [hpc], fun _ _ => hf,
      .failed hf rfl (release_fs _ _ _) rfl (by simp [prog, hpc]) rfl⟩
    intro r hr
    simp only [Pc.done.injEq] at hr
    exact .inl ⟨_, hr.symm⟩
  | release l rest e k c hpc hl he hc hs0 hk =>
    obtain ⟨sk, r, e', c', hleq, h1, h2, h3, h4, h5, h6, h7, h8, h9, h10⟩ := head l rest hl
    obtain ⟨l', rest', hl', hk'⟩ := mv k hpc
    rw [hl] at hl'; cases hl'
    rw [hleq] at hk hk' ⊢
    simp only [Int.toNat_natCast] at hk hk' ⊢
    refine ⟨cs, by rw [release_fs]; exact h, ⟨h10, fits, by simp, by simp, by simp⟩, trivial, by simp [hpc], by simp,
      .silent rfl (release_fs _ _ _) rfl (by simp only [prog, hpc]; omega)⟩

end Verif.FileConc
