import Verif.Props.FileConc
/-
Property C74, continued: a call that nobody disturbs does what Model/FileIO.lean says, whatever the metadata, the buffers and the files, and however the
transfers are split into system calls.
-/
set_option autoImplicit false

namespace Verif.FileConc
open Verif.Files Verif.FS Verif.FileIO Verif.Layout Verif.Lts

/-- the result of `ReadPiece` in a goroutine, and the buffer if there is no error -/
def ReadAs (x : Res (Nat × Bytes)) (r : Res Nat) (buf : Bytes) : Prop :=
  match x with
  | .ok (n, b) => r = .ok n ∧ buf = b
  | .err e => r = .err e
  | .panic => r = .panic
  | .timeout => r = .timeout

theorem writeAt_writeAt (c : Bytes) (s : Nat) (d1 d2 : Bytes) : writeAt (writeAt c s d1) (s + d1.length) d2 = writeAt c s (d1 ++ d2) := by
  by_cases h2 : d2 = []
  · rw [h2, List.append_nil]; rfl
  · by_cases h1 : d1 = []
    · subst h1; rfl
    · unfold writeAt
      rw [if_neg h2, if_neg h1, if_neg (by simp [h1])]
      have hP : ((c ++ List.replicate (s - c.length) (0 : UInt8)).take s).length = s := by simp; omega
      generalize (c ++ List.replicate (s - c.length) (0 : UInt8)).take s = P at hP
      have e1 : s + d1.length - (P ++ d1 ++ c.drop (s + d1.length)).length = 0 := by simp [hP]
      rw [e1, List.replicate_zero, List.append_nil, List.take_append_of_le_length (by simp [hP]), List.take_of_length_le (by simp [hP])]
      have e2 : (P ++ d1 ++ c.drop (s + d1.length)).drop (s + d1.length + d2.length) = c.drop (s + (d1 ++ d2).length) := by
        rw [List.drop_append, List.drop_eq_nil_of_le (by simp [hP]), List.nil_append, List.drop_drop]
        congr 1
        simp [hP]
        omega
      rw [e2]
      simp

theorem take_more (x : Bytes) (k m : Nat) : x.take k ++ (x.drop k).take m = x.take (k + m) := by
  rw [List.take_add]

/-- what is known about a reading goroutine: what the rest of the loop would do from where the goroutine was when it came to the current location -/
inductive Reads (fs : FS.State) (fio : FileIO) (R : Res (Nat × Bytes)) (t : Th) : Prop
  | top (hpc : t.pc = .top) (h : readLoop fs fio t.ls t.off t.buf = R)
  | move (k : Nat) (l : PieceLocation) (rest : List PieceLocation) (e : Entry) (b : Bytes) (hpc : t.pc = .move k) (hl : t.ls = l :: rest)
      (he : fio.torInfo.flist[l.fidx]? = some e) (ho : e.base.localPath ∈ fio.opened) (hs : 0 ≤ l.loc.readAmnt ∧ (t.off : Int) + l.loc.readAmnt ≤ b.length)
      (h : readLoop fs fio t.ls t.off b = R) (hk : k ≤ l.loc.readAmnt.toNat)
      (hb : (k = 0 ∧ t.buf = b) ∨ ∃ c, fs e.base.localPath = some c ∧ l.loc.seekAmnt.toNat + k ≤ c.length ∧ t.buf = overwrite b t.off ((c.drop l.loc.seekAmnt.toNat).take k))
  | done (r : Res Nat) (hpc : t.pc = .done r) (h : ReadAs R r t.buf)

theorem reads_step {fs : FS.State} {fio : FileIO} {R : Res (Nat × Bytes)} {s s' : Shared} {t t' : Th} (hf : s.fs = fs) (hw : t.write = false) (h : Reads fs fio R t)
    (hs : TStep fio false s t s' t') : Reads fs fio R t' ∧ s'.fs = fs ∧ t'.write = false := by
  subst hf
  have atMove : ∀ {k : Nat} {l : PieceLocation} {rest : List PieceLocation} {e : Entry}, t.pc = .move k → t.ls = l :: rest → fio.torInfo.flist[l.fidx]? = some e →
      ∃ b, e.base.localPath ∈ fio.opened ∧ (0 ≤ l.loc.readAmnt ∧ (t.off : Int) + l.loc.readAmnt ≤ b.length) ∧ readLoop s.fs fio (l :: rest) t.off b = R ∧ k ≤ l.loc.readAmnt.toNat ∧
        ((k = 0 ∧ t.buf = b) ∨ ∃ c, s.fs e.base.localPath = some c ∧ l.loc.seekAmnt.toNat + k ≤ c.length ∧ t.buf = overwrite b t.off ((c.drop l.loc.seekAmnt.toNat).take k)) := by
    intro k l rest e hpc hl he
    cases h with
    | top hpc' => rw [hpc] at hpc'; cases hpc'
    | done r hpc' => rw [hpc] at hpc'; cases hpc'
    | move k' l' rest' e' b hpc' hl' he' ho hs h hk hb =>
      rw [hpc] at hpc'; cases hpc'
      rw [hl] at hl'; cases hl'
      rw [he] at he'; cases he'
      exact ⟨b, ho, hs, hl ▸ h, hk, hb⟩
  have atTop : ∀ {l : PieceLocation} {rest : List PieceLocation}, t.pc = .top → t.ls = l :: rest → readLoop s.fs fio (l :: rest) t.off t.buf = R := by
    intro l rest hpc hl
    cases h with
    | top hpc' h => rw [← hl]; exact h
    | done r hpc' => rw [hpc] at hpc'; cases hpc'
    | move k' l' rest' e' b hpc' => rw [hpc] at hpc'; cases hpc'
  cases hs with
  | finish hpc hl =>
    refine ⟨.done _ rfl ?_, rfl, hw⟩
    cases h with
    | top hpc' h => rw [hl, readLoop] at h; rw [← h]; exact ⟨rfl, rfl⟩
    | done r hpc' => rw [hpc] at hpc'; cases hpc'
    | move k' l' rest' e' b hpc' => rw [hpc] at hpc'; cases hpc'
  | slice l rest hpc hl h' =>
    refine ⟨.done _ rfl ?_, rfl, hw⟩
    have hr := atTop hpc hl
    rw [readLoop, if_pos (by unfold sliceOk at h'; omega)] at hr
    rw [← hr]; rfl
  | noEntry l rest hpc hl h' he =>
    refine ⟨.done _ rfl ?_, rfl, hw⟩
    have hr := atTop hpc hl
    rw [readLoop, if_neg (by unfold sliceOk at h'; omega), he] at hr
    rw [← hr]; rfl
  | noPath l rest e hpc hl h' he ho =>
    refine ⟨.done _ rfl ?_, rfl, hw⟩
    have hr := atTop hpc hl
    rw [readLoop, if_neg (by unfold sliceOk at h'; omega), he] at hr
    simp only [if_neg ho] at hr
    rw [← hr]; rfl
  | rlock l rest e hpc hl h' he ho hw' hfree =>
    exact ⟨.move 0 l rest e t.buf rfl hl he ho h' (by show readLoop _ _ t.ls t.off t.buf = R; rw [hl]; exact atTop hpc hl) (Nat.zero_le _) (.inl ⟨rfl, rfl⟩), rfl, hw⟩
  | announce l rest e hpc hl h' he ho hw' hfree => rw [hw] at hw'; cases hw'
  | lock l rest e hpc hl he hfree =>
    cases h with
    | top hpc' => rw [hpc] at hpc'; cases hpc'
    | done r hpc' => rw [hpc] at hpc'; cases hpc'
    | move k' l' rest' e' b hpc' => rw [hpc] at hpc'; cases hpc'
  | get l rest e k m c hpc hl he hw' hc hs hm hk hlen =>
    obtain ⟨b, g1, g2, g3, g4, g5⟩ := atMove hpc hl he
    refine ⟨.move (k + m) l rest e b rfl hl he g1 g2 (by rw [hl]; exact g3) hk (.inr ⟨c, hc, by omega, ?_⟩), rfl, hw⟩
    have hbuf : t.buf = overwrite b t.off ((c.drop l.loc.seekAmnt.toNat).take k) := by
      rcases g5 with ⟨rfl, e1⟩ | ⟨c', e1, -, e2⟩
      · rw [e1, List.take_zero, overwrite_splice, splice_nil]
      · rw [hc] at e1; cases e1; exact e2
    have hlk : ((c.drop l.loc.seekAmnt.toNat).take k).length = k := by simp; omega
    have hlm : ((c.drop (l.loc.seekAmnt.toNat + k)).take m).length = m := by simp; omega
    show overwrite t.buf (t.off + k) _ = _
    rw [hbuf, overwrite_splice, overwrite_splice, overwrite_splice]
    have := splice_splice b t.off ((c.drop l.loc.seekAmnt.toNat).take k) ((c.drop (l.loc.seekAmnt.toNat + k)).take m) (by rw [hlk, hlm]; omega)
    rw [hlk] at this
    rw [this, ← List.drop_drop, take_more]
  | put l rest e k m c hpc hl he hw' => rw [hw] at hw'; cases hw'
  | eof l rest e k c hpc hl he hw' hc hs hk hlen =>
    obtain ⟨b, g1, g2, g3, g4, g5⟩ := atMove hpc hl he
    refine ⟨.done _ rfl ?_, release_fs _ _ _, hw⟩
    rw [readLoop, if_neg (by omega), he] at g3
    simp only [if_pos g1, hc] at g3
    rw [if_neg (by omega), if_pos (by omega)] at g3
    rw [← g3]; rfl
  | negative l rest e k hpc hl he hs =>
    obtain ⟨b, g1, g2, g3, g4, g5⟩ := atMove hpc hl he
    refine ⟨.done _ rfl ?_, release_fs _ _ _, hw⟩
    rw [readLoop, if_neg (by omega), he] at g3
    simp only [if_pos g1] at g3
    cases hc : s.fs e.base.localPath with
    | none => rw [hc] at g3; rw [← g3]; rfl
    | some c =>
      rw [hc] at g3
      simp only [if_pos (hs.resolve_right (by simp [hc]))] at g3
      rw [← g3]; rfl
  | fail l rest e k hf => cases hf
  | release l rest e k c hpc hl he hc hs hk =>
    obtain ⟨b, g1, g2, g3, g4, g5⟩ := atMove hpc hl he
    refine ⟨.top rfl ?_, release_fs _ _ _, hw⟩
    have hk' : k = l.loc.readAmnt.toNat := by omega
    rw [readLoop, if_neg (by omega), he] at g3
    simp only [if_pos g1, hc] at g3
    have hneof : ¬ (c.length < l.loc.seekAmnt.toNat + l.loc.readAmnt.toNat ∧ 0 < l.loc.readAmnt) := by
      rcases g5 with ⟨k0, -⟩ | ⟨c', e1, e2, -⟩
      · omega
      · rw [hc] at e1; cases e1; omega
    rw [if_neg (by omega), if_neg hneof] at g3
    rw [← g3]
    have hbuf : t.buf = overwrite b t.off ((c.drop l.loc.seekAmnt.toNat).take l.loc.readAmnt.toNat) := by
      rcases g5 with ⟨k0, e1⟩ | ⟨c', e1, -, e2⟩
      · rw [e1, ← hk', k0, List.take_zero, overwrite_splice, splice_nil]
      · rw [hc] at e1; cases e1; rw [← hk']; exact e2
    show readLoop s.fs fio rest (t.off + l.loc.readAmnt.toNat) t.buf = _
    rw [hbuf]

/-- **C74**: a single `ReadPiece` does what the sequential model says: for all metadata, files and buffers, fitting or not. -/
theorem C74_alone_read (H : Bytes → Bytes) (fio : FileIO) (fs : FS.State) (i : Int) (buf : Bytes) (s : St)
    (hr : Reach (Step fio false) (init H fio.torInfo fs [.read i buf]) s) :
    s.sh.fs = fs ∧ ∃ t, s.ths = [t] ∧ ∀ r, t.pc = .done r → ReadAs (ReadPiece fs fio i buf) r t.buf := by
  suffices h : s.sh.fs = fs ∧ ∃ t, s.ths = [t] ∧ t.write = false ∧ Reads fs fio (ReadPiece fs fio i buf) t by
    obtain ⟨h1, t, h2, -, h3⟩ := h
    refine ⟨h1, t, h2, fun r hr => ?_⟩
    cases h3 with
    | top hpc => rw [hr] at hpc; cases hpc
    | move k l rest e b hpc => rw [hr] at hpc; cases hpc
    | done r' hpc h => rw [hr] at hpc; cases hpc; exact h
  induction hr with
  | refl =>
    refine ⟨rfl, startRead fio.torInfo i buf, rfl, ?_⟩
    unfold startRead ReadPiece
    cases fio.torInfo.PieceLookup i with
    | ok plocs => exact ⟨rfl, .top rfl rfl⟩
    | err e => exact ⟨rfl, .done _ rfl rfl⟩
    | panic => exact ⟨rfl, .done _ rfl rfl⟩
    | timeout => exact ⟨rfl, .done _ rfl rfl⟩
  | tail s1 s2 _ hs ih =>
    obtain ⟨h1, t, h2, h3, h4⟩ := ih
    cases hs with
    | mk j t0 t' sh' hj h =>
      rw [h2] at hj
      cases j with
      | succ j => cases hj
      | zero =>
        cases Option.some.inj hj
        obtain ⟨k1, k2, k3⟩ := reads_step h1 h3 h4 h
        exact ⟨k2, t', by show s1.ths.set 0 t' = [t']; rw [h2]; rfl, k3, k1⟩

/-- what is known about a writing goroutine -/
inductive Writes (fio : FileIO) (R : FS.State × Res Nat) (fs : FS.State) (t : Th) : Prop
  | top (hpc : t.pc = .top) (h : writeLoop fio t.buf t.ls t.off fs = R)
  | pending (l : PieceLocation) (rest : List PieceLocation) (e : Entry) (hpc : t.pc = .pending) (hl : t.ls = l :: rest)
      (he : fio.torInfo.flist[l.fidx]? = some e) (ho : e.base.localPath ∈ fio.opened) (hs : 0 ≤ l.loc.readAmnt ∧ (t.off : Int) + l.loc.readAmnt ≤ t.buf.length)
      (h : writeLoop fio t.buf t.ls t.off fs = R)
  | move (k : Nat) (l : PieceLocation) (rest : List PieceLocation) (e : Entry) (fs0 : FS.State) (hpc : t.pc = .move k) (hl : t.ls = l :: rest)
      (he : fio.torInfo.flist[l.fidx]? = some e) (ho : e.base.localPath ∈ fio.opened) (hs : 0 ≤ l.loc.readAmnt ∧ (t.off : Int) + l.loc.readAmnt ≤ t.buf.length)
      (h : writeLoop fio t.buf t.ls t.off fs0 = R) (hk : k ≤ l.loc.readAmnt.toNat)
      (hb : (k = 0 ∧ fs = fs0) ∨ ∃ c, fs0 e.base.localPath = some c ∧ 0 ≤ l.loc.seekAmnt ∧
        fs = fs0.set e.base.localPath (writeAt c l.loc.seekAmnt.toNat ((t.buf.drop t.off).take k)))
  | done (r : Res Nat) (hpc : t.pc = .done r) (h : R = (fs, r))

theorem writes_step {fio : FileIO} {R : FS.State × Res Nat} {s s' : Shared} {t t' : Th} (hw : t.write = true) (h : Writes fio R s.fs t)
    (hs : TStep fio false s t s' t') : Writes fio R s'.fs t' ∧ t'.write = true := by
  have atMove : ∀ {k : Nat} {l : PieceLocation} {rest : List PieceLocation} {e : Entry}, t.pc = .move k → t.ls = l :: rest → fio.torInfo.flist[l.fidx]? = some e →
      ∃ fs0, e.base.localPath ∈ fio.opened ∧ (0 ≤ l.loc.readAmnt ∧ (t.off : Int) + l.loc.readAmnt ≤ t.buf.length) ∧ writeLoop fio t.buf (l :: rest) t.off fs0 = R ∧
        k ≤ l.loc.readAmnt.toNat ∧ ((k = 0 ∧ s.fs = fs0) ∨ ∃ c, fs0 e.base.localPath = some c ∧ 0 ≤ l.loc.seekAmnt ∧
          s.fs = fs0.set e.base.localPath (writeAt c l.loc.seekAmnt.toNat ((t.buf.drop t.off).take k))) := by
    intro k l rest e hpc hl he
    cases h with
    | top hpc' => rw [hpc] at hpc'; cases hpc'
    | pending l' rest' e' hpc' => rw [hpc] at hpc'; cases hpc'
    | done r hpc' => rw [hpc] at hpc'; cases hpc'
    | move k' l' rest' e' b hpc' hl' he' ho hs h hk hb =>
      rw [hpc] at hpc'; cases hpc'
      rw [hl] at hl'; cases hl'
      rw [he] at he'; cases he'
      exact ⟨b, ho, hs, hl ▸ h, hk, hb⟩
  have atTop : ∀ {l : PieceLocation} {rest : List PieceLocation}, t.pc = .top → t.ls = l :: rest → writeLoop fio t.buf (l :: rest) t.off s.fs = R := by
    intro l rest hpc hl
    cases h with
    | top hpc' h => rw [← hl]; exact h
    | done r hpc' => rw [hpc] at hpc'; cases hpc'
    | pending l' rest' e' hpc' => rw [hpc] at hpc'; cases hpc'
    | move k' l' rest' e' b hpc' => rw [hpc] at hpc'; cases hpc'
  cases hs with
  | finish hpc hl =>
    refine ⟨.done _ rfl ?_, hw⟩
    cases h with
    | top hpc' h => rw [hl, writeLoop] at h; exact h.symm
    | done r hpc' => rw [hpc] at hpc'; cases hpc'
    | pending l' rest' e' hpc' => rw [hpc] at hpc'; cases hpc'
    | move k' l' rest' e' b hpc' => rw [hpc] at hpc'; cases hpc'
  | slice l rest hpc hl h' =>
    refine ⟨.done _ rfl ?_, hw⟩
    have hr := atTop hpc hl
    rw [writeLoop, if_pos (by unfold sliceOk at h'; omega)] at hr
    exact hr.symm
  | noEntry l rest hpc hl h' he =>
    refine ⟨.done _ rfl ?_, hw⟩
    have hr := atTop hpc hl
    rw [writeLoop, if_neg (by unfold sliceOk at h'; omega), he] at hr
    exact hr.symm
  | noPath l rest e hpc hl h' he ho =>
    refine ⟨.done _ rfl ?_, hw⟩
    have hr := atTop hpc hl
    rw [writeLoop, if_neg (by unfold sliceOk at h'; omega), he] at hr
    simp only [if_neg ho] at hr
    exact hr.symm
  | rlock l rest e hpc hl h' he ho hw' hfree => rw [hw] at hw'; cases hw'
  | announce l rest e hpc hl h' he ho hw' hfree =>
    exact ⟨.pending l rest e rfl hl he ho h' (by show writeLoop _ _ t.ls _ _ = R; rw [hl]; exact atTop hpc hl), hw⟩
  | lock l rest e hpc hl he hfree =>
    cases h with
    | top hpc' => rw [hpc] at hpc'; cases hpc'
    | done r hpc' => rw [hpc] at hpc'; cases hpc'
    | pending l' rest' e' hpc' hl' he' ho hs h =>
      rw [hl] at hl'; cases hl'
      rw [he] at he'; cases he'
      exact ⟨.move 0 l rest e s.fs rfl hl he ho hs h (Nat.zero_le _) (.inl ⟨rfl, rfl⟩), hw⟩
    | move k' l' rest' e' b hpc' => rw [hpc] at hpc'; cases hpc'
  | get l rest e k m c hpc hl he hw' => rw [hw] at hw'; cases hw'
  | put l rest e k m c hpc hl he hw' hc hs hm hk =>
    obtain ⟨fs0, g1, g2, g3, g4, g5⟩ := atMove hpc hl he
    refine ⟨.move (k + m) l rest e fs0 rfl hl he g1 g2 (by show writeLoop _ _ t.ls _ _ = R; rw [hl]; exact g3) hk (.inr ?_), hw⟩
    rcases g5 with ⟨k0, e1⟩ | ⟨c', e1, -, e2⟩
    · refine ⟨c, e1 ▸ hc, hs, ?_⟩
      show s.fs.set _ _ = _
      rw [e1, k0]
      simp
    · refine ⟨c', e1, hs, ?_⟩
      show s.fs.set _ _ = _
      have hc' := hc
      rw [e2, set_get] at hc'
      cases hc'
      have hlk : ((t.buf.drop t.off).take k).length = k := by simp; omega
      have := writeAt_writeAt c' l.loc.seekAmnt.toNat ((t.buf.drop t.off).take k) ((t.buf.drop (t.off + k)).take m)
      rw [hlk] at this
      rw [e2, set_set, this, ← List.drop_drop, take_more]
  | eof l rest e k c hpc hl he hw' => rw [hw] at hw'; cases hw'
  | negative l rest e k hpc hl he hs =>
    obtain ⟨fs0, g1, g2, g3, g4, g5⟩ := atMove hpc hl he
    refine ⟨.done _ rfl ?_, hw⟩
    rw [release_fs]
    have hfs : s.fs = fs0 := by
      rcases g5 with ⟨-, e1⟩ | ⟨c', e1, e2, e3⟩
      · exact e1
      · rcases hs with hs | hs
        · omega
        · rw [e3, set_get] at hs; cases hs
    rw [← hfs, writeLoop, if_neg (by omega), he] at g3
    simp only [if_pos g1] at g3
    cases hc : s.fs e.base.localPath with
    | none => rw [hc] at g3; exact g3.symm
    | some c =>
      rw [hc] at g3
      simp only [if_pos (hs.resolve_right (by simp [hc]))] at g3
      exact g3.symm
  | fail l rest e k hf => cases hf
  | release l rest e k c hpc hl he hc hs hk =>
    obtain ⟨fs0, g1, g2, g3, g4, g5⟩ := atMove hpc hl he
    refine ⟨.top rfl ?_, hw⟩
    rw [release_fs]
    have hk' : k = l.loc.readAmnt.toNat := by omega
    show writeLoop fio t.buf rest (t.off + l.loc.readAmnt.toNat) s.fs = R
    rw [← g3, writeLoop, if_neg (by omega), he]
    simp only [if_pos g1]
    rcases g5 with ⟨k0, e1⟩ | ⟨c', e1, e2, e3⟩
    · rw [← e1, hc]
      simp only [if_neg (show ¬ l.loc.seekAmnt < 0 by omega)]
      rw [← hk', k0, List.take_zero, show writeAt c l.loc.seekAmnt.toNat [] = c from rfl, set_self _ _ _ hc]
    · rw [e1]
      simp only [if_neg (show ¬ l.loc.seekAmnt < 0 by omega)]
      rw [e3, hk']

/-- **C74**: a single `WritePiece` does what the sequential model says, errors and panics included. -/
theorem C74_alone_write (H : Bytes → Bytes) (fio : FileIO) (fs : FS.State) (i : Int) (data spare : Bytes) (s : St)
    (hr : Reach (Step fio false) (init H fio.torInfo fs [.write i data spare]) s) :
    ∃ t, s.ths = [t] ∧ ∀ r, t.pc = .done r → WritePiece H fs fio i data spare = (s.sh.fs, r) := by
  suffices h : ∃ t, s.ths = [t] ∧ t.write = true ∧ Writes fio (WritePiece H fs fio i data spare) s.sh.fs t by
    obtain ⟨t, h2, -, h3⟩ := h
    refine ⟨t, h2, fun r hr => ?_⟩
    cases h3 with
    | top hpc => rw [hr] at hpc; cases hpc
    | pending l rest e hpc => rw [hr] at hpc; cases hpc
    | move k l rest e b hpc => rw [hr] at hpc; cases hpc
    | done r' hpc h => rw [hr] at hpc; cases hpc; exact h
  induction hr with
  | refl =>
    refine ⟨startWrite H fio.torInfo i data spare, rfl, ?_⟩
    unfold startWrite WritePiece
    cases fio.torInfo.PieceLookup i with
    | ok plocs =>
      cases fio.torInfo.PieceHash i with
      | ok kh =>
        by_cases hh : H data ≠ kh
        · simp only [if_pos hh]; exact ⟨trivial, .done _ rfl rfl⟩
        · simp only [if_neg hh]; exact ⟨trivial, .top rfl rfl⟩
      | err e => exact ⟨rfl, .done _ rfl rfl⟩
      | panic => exact ⟨rfl, .done _ rfl rfl⟩
      | timeout => exact ⟨rfl, .done _ rfl rfl⟩
    | err e => exact ⟨rfl, .done _ rfl rfl⟩
    | panic => exact ⟨rfl, .done _ rfl rfl⟩
    | timeout => exact ⟨rfl, .done _ rfl rfl⟩
  | tail s1 s2 _ hs ih =>
    obtain ⟨t, h2, h3, h4⟩ := ih
    cases hs with
    | mk j t0 t' sh' hj h =>
      rw [h2] at hj
      cases j with
      | succ j => cases hj
      | zero =>
        cases Option.some.inj hj
        obtain ⟨k1, k2⟩ := writes_step h3 h4 h
        exact ⟨t', by show s1.ths.set 0 t' = [t']; rw [h2]; rfl, k2, k1⟩

/-- a read of piece 1 into a buffer that is too small panics; into one that is large enough it does not -/
example : ∃ ti, Accepted 4 exHashes exFiles ti ∧ ReadPiece exDisk (openedAll ti) 1 [7, 7] = .panic ∧ ReadPiece exDisk (openedAll ti) 1 [7, 7, 7, 7, 7] = .ok (4, [0, 0, 0, 0, 7]) ∧
    (WritePiece exH exDisk (openedAll ti) 1 [5, 6, 7, 8] []).2 = .ok 4 :=
  have hacc : Accepted 4 exHashes exFiles _ := ⟨by decide, exFiles_nonneg, ascii "t", rfl⟩
  ⟨_, hacc, by decide +kernel, by decide +kernel, by decide +kernel⟩

end Verif.FileConc
