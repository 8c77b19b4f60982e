import Verif.Model.FileClose
import Verif.Lemmas.FileConcLocks
/-
Lemmas about closing files while pieces are read and written: the locks, no deadlock, termination, and that every execution is, as far as the files
and the successful calls are concerned, an execution without closed files in which some calls have not gone on.
-/
set_option autoImplicit false

namespace Verif.FileClose
open Verif.Files Verif.FS Verif.FileIO Verif.FileConc Verif.Lts

def CPc.isBusy : CPc → Bool
  | .pending => true
  | .held => true
  | _ => false

/-- holds the lock of `p` or waits for the readers to leave -/
def holdsC (p : Bytes) (c : Closer) : Bool := c.pc.isBusy && c.todo.head? == some p

/-- the invariant -/
structure CInv (fio : FileIO) (s : St) : Prop where
  wf : ∀ t ∈ s.ths, WF fio t
  cwf : ∀ c ∈ s.cls, c.pc.isBusy = true → ∃ p rest, c.todo = p :: rest
  rd : ∀ p, s.sh.readers p = s.ths.countP (holdsR fio p)
  wr : ∀ p, (s.sh.writer p).toNat = s.ths.countP (holdsW fio p) + s.cls.countP (holdsC p)
  excl : ∀ p, ∀ t ∈ s.ths, holdsW fio p t = true → t.pc.isMove = true → s.sh.readers p = 0
  cexcl : ∀ p, ∀ c ∈ s.cls, holdsC p c = true → c.pc = .held → s.sh.readers p = 0
  zero : ∀ t ∈ s.ths, ∀ k l rest e, t.pc = .move k → t.ls = l :: rest → fio.torInfo.flist[l.fidx]? = some e → s.closed e.base.localPath = true → k = 0
  able : ∀ t ∈ s.ths, (t.pc = .pending ∨ t.pc = .move 0) → ∀ l rest e, t.ls = l :: rest → fio.torInfo.flist[l.fidx]? = some e →
    sliceOk t l ∧ e.base.localPath ∈ fio.opened

theorem headPath_eq {fio : FileIO} {t : Th} {l : PieceLocation} {rest : List PieceLocation} {e : Entry} (hl : t.ls = l :: rest)
    (he : fio.torInfo.flist[l.fidx]? = some e) : headPath fio t = some e.base.localPath := by
  unfold headPath; rw [hl]; simp only; rw [he]; rfl

theorem CInv.writer_true {fio : FileIO} {s : St} (h : CInv fio s) {p : Bytes} (hp : 0 < s.ths.countP (holdsW fio p) + s.cls.countP (holdsC p)) :
    s.sh.writer p = true := by
  rw [← h.wr p] at hp
  cases hh : s.sh.writer p
  · rw [hh] at hp; simp at hp
  · rfl

/-- a step of a goroutine that reads or writes -/
theorem CInv.thread {fio : FileIO} {f : Bool} {s : St} (h : CInv fio s) {j : Nat} {t t' : Th} {sh' : Shared} (hj : s.ths[j]? = some t)
    (ht : TStep fio f s.sh t sh' t')
    (hz : ∀ k l rest e, t'.pc = .move k → t'.ls = l :: rest → fio.torInfo.flist[l.fidx]? = some e → s.closed e.base.localPath = true → k = 0)
    (ha : (t'.pc = .pending ∨ t'.pc = .move 0) → ∀ l rest e, t'.ls = l :: rest → fio.torInfo.flist[l.fidx]? = some e →
      sliceOk t' l ∧ e.base.localPath ∈ fio.opened) :
    CInv fio ⟨sh', s.closed, s.ths.set j t', s.cls⟩ := by
  have hwf := h.wf t (List.mem_of_getElem? hj)
  have hr := fun p => countP_ge (holdsR fio p) _ _ _ hj
  have hw := fun p => countP_ge (holdsW fio p) _ _ _ hj
  have key := fun p => ht.locks hwf p (by rw [h.rd p]; exact hr p) (by rw [h.wr p]; have := hw p; omega)
  refine ⟨?_, h.cwf, ?_, ?_, ?_, ?_, ?_, ?_⟩
  · intro u hu
    rcases mem_set_of hu with hu | rfl
    · exact h.wf u hu
    · exact ht.wf
  · intro p
    have h1 := (key p).1
    have h2 := countP_put (holdsR fio p) _ _ _ t' hj
    have h3 := h.rd p
    simp only; omega
  · intro p
    have h1 := (key p).2.1
    have h2 := countP_put (holdsW fio p) _ _ _ t' hj
    have h3 := h.wr p
    simp only; omega
  · intro p u hu h1 h2
    obtain ⟨-, -, k3, k4⟩ := key p
    simp only at hu ⊢
    obtain ⟨i, hi⟩ := List.mem_iff_getElem?.mp hu
    rw [List.getElem?_set] at hi
    split at hi
    · split at hi
      · cases hi
        obtain ⟨a1, a2, a3⟩ := k3 h1 h2
        rcases a2 with a2 | a2
        · rw [a3]; exact h.excl p t (List.mem_of_getElem? hj) a1 a2
        · rw [a3]; exact a2
      · cases hi
    · have hz := h.excl p u (List.mem_of_getElem? hi) h1 h2
      have : s.sh.writer p = true := h.writer_true (by
        have : 0 < s.ths.countP (holdsW fio p) := List.countP_pos_iff.mpr ⟨u, List.mem_of_getElem? hi, h1⟩
        omega)
      rcases Nat.lt_or_ge (s.sh.readers p) (sh'.readers p) with hlt | hge
      · rw [k4 hlt] at this; cases this
      · omega
  · intro p c hc h1 h2
    obtain ⟨-, -, -, k4⟩ := key p
    have hz := h.cexcl p c hc h1 h2
    have : s.sh.writer p = true := h.writer_true (by
      have : 0 < s.cls.countP (holdsC p) := List.countP_pos_iff.mpr ⟨c, hc, h1⟩
      omega)
    simp only
    rcases Nat.lt_or_ge (s.sh.readers p) (sh'.readers p) with hlt | hge
    · rw [k4 hlt] at this; cases this
    · omega
  · intro u hu
    rcases mem_set_of hu with hu | rfl
    · exact h.zero u hu
    · exact hz
  · intro u hu
    rcases mem_set_of hu with hu | rfl
    · exact h.able u hu
    · exact ha

/-- a step of a goroutine that closes files -/
theorem CInv.closer {fio : FileIO} {faulty : Bool} {s : St} (h : CInv fio s) {j : Nat} {c c' : Closer} {sh' : Shared} {cl' : Bytes → Bool}
    (hj : s.cls[j]? = some c) (hc : CTStep fio faulty s.sh s.closed c sh' cl' c') : CInv fio ⟨sh', cl', s.ths, s.cls.set j c'⟩ := by
  have hm := List.mem_of_getElem? hj
  -- what happens to the locks
  have key : ∀ p, sh'.readers p = s.sh.readers p ∧ (sh'.writer p).toNat + (holdsC p c).toNat = (s.sh.writer p).toNat + (holdsC p c').toNat := by
    intro p
    cases hc with
    | finish => exact ⟨rfl, by simp [holdsC, CPc.isBusy]⟩
    | noPath p' rest ho => exact ⟨rfl, by simp [holdsC, CPc.isBusy]⟩
    | announce p' rest ho hfree =>
      refine ⟨rfl, ?_⟩
      simp only [holdsC, CPc.isBusy, Shared.announce, List.head?_cons]
      by_cases hq : p = p'
      · subst hq; simp [hfree]
      · have : (some p' == some p) = false := by simp; exact fun h => hq h.symm
        simp [hq, this]
    | lock p' rest hfree => exact ⟨rfl, by simp [holdsC, CPc.isBusy]⟩
    | close p' rest hcl =>
      refine ⟨rfl, ?_⟩
      simp only [holdsC, CPc.isBusy, Shared.unlock, List.head?_cons]
      by_cases hq : p = p'
      · subst hq
        have : s.sh.writer p = true := h.writer_true (by
          have : 0 < s.cls.countP (holdsC p) := List.countP_pos_iff.mpr ⟨_, hm, by simp [holdsC, CPc.isBusy]⟩
          omega)
        simp [this]
      · have : (some p' == some p) = false := by simp; exact fun h => hq h.symm
        simp [hq, this]
    | again p' rest hcl =>
      refine ⟨rfl, ?_⟩
      simp only [holdsC, CPc.isBusy, Shared.unlock, List.head?_cons]
      by_cases hq : p = p'
      · subst hq
        have : s.sh.writer p = true := h.writer_true (by
          have : 0 < s.cls.countP (holdsC p) := List.countP_pos_iff.mpr ⟨_, hm, by simp [holdsC, CPc.isBusy]⟩
          omega)
        simp [this]
      · have : (some p' == some p) = false := by simp; exact fun h => hq h.symm
        simp [hq, this]
    | fail p' rest hf hcl =>
      refine ⟨rfl, ?_⟩
      simp only [holdsC, CPc.isBusy, Shared.unlock, List.head?_cons]
      by_cases hq : p = p'
      · subst hq
        have : s.sh.writer p = true := h.writer_true (by
          have : 0 < s.cls.countP (holdsC p) := List.countP_pos_iff.mpr ⟨_, hm, by simp [holdsC, CPc.isBusy]⟩
          omega)
        simp [this]
      · have : (some p' == some p) = false := by simp; exact fun h => hq h.symm
        simp [hq, this]
  -- nobody works on a file that is closed now
  have alone : ∀ p rest, c = ⟨p :: rest, .held⟩ → ∀ t ∈ s.ths, t.pc.isMove = true → headPath fio t ≠ some p := by
    intro p rest hcp t ht hmv hp
    have hcp' : holdsC p c = true := by rw [hcp]; simp [holdsC, CPc.isBusy]
    have h0 := h.cexcl p c hm hcp' (by rw [hcp])
    cases hb : t.write
    · have : 0 < s.ths.countP (holdsR fio p) := List.countP_pos_iff.mpr ⟨t, ht, by simp [holdsR, hb, hmv, hp]⟩
      rw [← h.rd p] at this; omega
    · have hbz : t.pc.isBusy = true := by
        cases hpc : t.pc <;> rw [hpc] at hmv <;> first | rfl | cases hmv
      have h1 : 0 < s.ths.countP (holdsW fio p) := List.countP_pos_iff.mpr ⟨t, ht, by simp [holdsW, hb, hbz, hp]⟩
      have h2 : 0 < s.cls.countP (holdsC p) := List.countP_pos_iff.mpr ⟨c, hm, hcp'⟩
      have := h.wr p
      have := Bool.toNat_le (s.sh.writer p)
      omega
  have hzero : ∀ p rest, c = ⟨p :: rest, .held⟩ → ∀ t ∈ s.ths, ∀ k l r e, t.pc = .move k → t.ls = l :: r → fio.torInfo.flist[l.fidx]? = some e →
      (if e.base.localPath = p then true else s.closed e.base.localPath) = true → k = 0 := by
    intro p rest hcp t ht k l r e h1 h2 h3 h4
    by_cases hq : e.base.localPath = p
    · exact absurd (by rw [headPath_eq h2 h3, hq]) (alone p rest hcp t ht (by rw [h1]; rfl))
    · rw [if_neg hq] at h4
      exact h.zero t ht k l r e h1 h2 h3 h4
  refine ⟨h.wf, ?_, ?_, ?_, ?_, ?_, ?_, h.able⟩
  · intro u hu
    rcases mem_set_of hu with hu | rfl
    · exact h.cwf u hu
    · cases hc <;> intro hb <;> first | exact ⟨_, _, rfl⟩ | cases hb
  · intro p
    simp only
    rw [(key p).1]; exact h.rd p
  · intro p
    have h1 := (key p).2
    have h2 := countP_put (holdsC p) _ _ _ c' hj
    have h3 := h.wr p
    simp only; omega
  · intro p u hu h1 h2
    simp only
    rw [(key p).1]; exact h.excl p u hu h1 h2
  · intro p u hu h1 h2
    simp only
    rw [(key p).1]
    rcases mem_set_of hu with hu | rfl
    · exact h.cexcl p u hu h1 h2
    · cases hc with
      | lock p' rest hfree =>
        simp [holdsC, CPc.isBusy] at h1
        subst h1; exact hfree
      | _ => cases h2
  · cases hc with
    | close p' rest hcl => exact hzero p' rest rfl
    | fail p' rest hf hcl => exact hzero p' rest rfl
    | _ => exact h.zero

theorem work_zero {fio : FileIO} {s : St} {t t' : Th} {sh' : Shared} (hc : ¬ Cut fio s.closed t)
    (ht : TStep fio false s.sh t sh' t') (k : Nat) (l : PieceLocation) (rest : List PieceLocation) (e : Entry) (h1 : t'.pc = .move k)
    (h2 : t'.ls = l :: rest) (h3 : fio.torInfo.flist[l.fidx]? = some e) (h4 : s.closed e.base.localPath = true) : k = 0 := by
  cases ht with
  | rlock => simp at h1; exact h1.symm
  | lock => simp at h1; exact h1.symm
  | get l' rest' e' k' m c hpc hl he hw hcc hs hm hk hlen =>
    simp only at h2
    rw [hl] at h2; cases h2
    rw [he] at h3; cases h3
    exact absurd ⟨l, rest, e, k', hpc, hl, he, h4, by omega⟩ hc
  | put l' rest' e' k' m c hpc hl he hw hcc hs hm hk =>
    simp only at h2
    rw [hl] at h2; cases h2
    rw [he] at h3; cases h3
    exact absurd ⟨l, rest, e, k', hpc, hl, he, h4, by omega⟩ hc
  | _ => cases h1

theorem work_able {fio : FileIO} {s : St} (h : CInv fio s) {j : Nat} {t t' : Th} {sh' : Shared} (hj : s.ths[j]? = some t)
    (ht : TStep fio false s.sh t sh' t') (hp : t'.pc = .pending ∨ t'.pc = .move 0) (l : PieceLocation) (rest : List PieceLocation) (e : Entry)
    (h2 : t'.ls = l :: rest) (h3 : fio.torInfo.flist[l.fidx]? = some e) : sliceOk t' l ∧ e.base.localPath ∈ fio.opened := by
  cases ht with
  | rlock l' rest' e' hpc hl hok he ho hw hfree =>
    simp only at h2
    rw [hl] at h2; cases h2
    rw [he] at h3; cases h3
    exact ⟨hok, ho⟩
  | announce l' rest' e' hpc hl hok he ho hw hfree =>
    simp only at h2
    rw [hl] at h2; cases h2
    rw [he] at h3; cases h3
    exact ⟨hok, ho⟩
  | lock l' rest' e' hpc hl he hfree =>
    exact h.able t (List.mem_of_getElem? hj) (.inl hpc) l rest e h2 h3
  | get l' rest' e' k' m c hpc hl he hw hcc hs hm hk hlen => simp at hp; omega
  | put l' rest' e' k' m c hpc hl he hw hcc hs hm hk => simp at hp; omega
  | _ => simp at hp

theorem CInv.step {fio : FileIO} {faulty : Bool} {s s' : St} (h : CInv fio s) (hs : Step fio faulty s s') : CInv fio s' := by
  cases hs with
  | work j t t' sh' hj hc ht => exact h.thread hj ht (work_zero hc ht) (work_able h hj ht)
  | cut j t l rest e k hj hpc hl he hc hk =>
    exact h.thread hj (.fail (faulty := true) s.sh t l rest e k rfl hpc hl he) (by simp) (by simp)
  | closing j c c' sh' cl' hj hc => exact h.closer hj hc

theorem init_cinv (H : Bytes → Bytes) (fio : FileIO) (ti : TorInfo) (fs : FS.State) (calls : List Call) (closings : List Closing) :
    CInv fio (init H ti fs calls closings) := by
  have l := start_linv H fio ti fs calls
  have hno : ∀ c, (start H ti c).pc.isBusy = false := by
    intro c
    cases c with
    | read i buf => unfold start startRead; simp only; split <;> rfl
    | write i d spare =>
      unfold start startWrite; simp only
      split
      · split
        · split <;> rfl
        all_goals rfl
      all_goals rfl
  refine ⟨l.wf, ?_, l.rd, ?_, l.excl, ?_, ?_, ?_⟩
  · intro c hc hb
    obtain ⟨x, -, rfl⟩ := List.mem_map.mp hc
    cases hb
  · intro p
    rw [show (init H ti fs calls closings).sh.writer p = (FileConc.init H ti fs calls).sh.writer p from rfl, l.wr p]
    have : (init H ti fs calls closings).cls.countP (holdsC p) = 0 := by
      rw [List.countP_eq_zero]
      intro c hc
      obtain ⟨x, -, rfl⟩ := List.mem_map.mp hc
      simp [begin, holdsC, CPc.isBusy]
    rw [this]; rfl
  · intro p c hc h1 h2
    obtain ⟨x, -, rfl⟩ := List.mem_map.mp hc
    cases h2
  · intro t ht k _ _ _ hk
    obtain ⟨c, -, rfl⟩ := List.mem_map.mp ht
    have := hno c; rw [hk] at this; cases this
  · intro t ht hk
    obtain ⟨c, -, rfl⟩ := List.mem_map.mp ht
    have := hno c
    rcases hk with hk | hk <;> rw [hk] at this <;> cases this

theorem reach_cinv {H : Bytes → Bytes} {fio : FileIO} {ti : TorInfo} {fs : FS.State} {calls : List Call} {closings : List Closing} {faulty : Bool} {s : St}
    (hr : Reach (Step fio faulty) (init H ti fs calls closings) s) : CInv fio s := by
  induction hr with
  | refl => exact init_cinv H fio ti fs calls closings
  | tail s' s'' _ hs ih => exact ih.step hs

/-! ### no deadlock -/

def CPc.isDone : CPc → Bool
  | .done _ => true
  | _ => false

/-- all goroutines have returned -/
def AllBack (s : St) : Prop := (∀ t ∈ s.ths, ∃ r, t.pc = .done r) ∧ ∀ c ∈ s.cls, ∃ r, c.pc = .done r

theorem CInv.progress {fio : FileIO} {faulty : Bool} {s : St} (h : CInv fio s) (hn : ¬ AllBack s) : ∃ s', Step fio faulty s s' := by
  apply Classical.byContradiction
  intro hno
  have lift : ∀ (u : Th), u ∈ s.ths → (¬ Cut fio s.closed u) → ¬ ∃ s' u', TStep fio false s.sh u s' u' := by
    rintro u hu hc ⟨s', u', hx⟩
    obtain ⟨j, hj⟩ := List.mem_iff_getElem?.mp hu
    exact hno ⟨_, .work s j u u' s' hj hc hx⟩
  have clift : ∀ (c : Closer), c ∈ s.cls → ¬ ∃ s' cl' c', CTStep fio faulty s.sh s.closed c s' cl' c' := by
    rintro c hc ⟨s', cl', c', hx⟩
    obtain ⟨j, hj⟩ := List.mem_iff_getElem?.mp hc
    exact hno ⟨_, .closing s j c c' s' cl' hj hx⟩
  have ncut : ∀ u : Th, u.pc.isMove = false → ¬ Cut fio s.closed u := by
    rintro u hu ⟨l, rest, e, k, hpc, -⟩
    rw [hpc] at hu; cases hu
  have mv : ∀ (u : Th), u ∈ s.ths → u.pc.isMove = false := by
    intro u hu
    cases hm : u.pc.isMove
    · rfl
    · exfalso
      by_cases hc : Cut fio s.closed u
      · obtain ⟨l, rest, e, k, h1, h2, h3, h4, h5⟩ := hc
        obtain ⟨j, hj⟩ := List.mem_iff_getElem?.mp hu
        exact hno ⟨_, .cut s j u l rest e k hj h1 h2 h3 h4 h5⟩
      · exact lift u hu hc (move_steps _ u (h.wf u hu) hm)
  -- there are no readers
  have nr : ∀ p, s.sh.readers p = 0 := by
    intro p
    rw [h.rd p, List.countP_eq_zero]
    intro t ht
    simp [holdsR, mv t ht]
  have nb : ∀ u ∈ s.ths, u.pc.isBusy = false := by
    intro u hu
    cases hpc : u.pc with
    | move k => have := mv u hu; rw [hpc] at this; cases this
    | pending =>
      obtain ⟨l, rest, e, hl, he⟩ := (h.wf u hu).busy (by rw [hpc]; rfl)
      exact absurd ⟨_, _, .lock s.sh u l rest e hpc hl he (nr _)⟩ (lift u hu (ncut u (mv u hu)))
    | top => rfl
    | done r => rfl
  have ncb : ∀ c ∈ s.cls, c.pc.isBusy = false := by
    intro c hc
    cases hb : c.pc.isBusy
    · rfl
    · exfalso
      obtain ⟨p, rest, hp⟩ := h.cwf c hc hb
      obtain ⟨todo, pc⟩ := c
      simp only at hp hb
      subst hp
      cases pc with
      | top => cases hb
      | done r => cases hb
      | pending => exact clift _ hc ⟨_, _, _, .lock s.sh s.closed p rest (nr p)⟩
      | held =>
        cases hcl : s.closed p
        · exact clift _ hc ⟨_, _, _, .close s.sh s.closed p rest hcl⟩
        · exact clift _ hc ⟨_, _, _, .again s.sh s.closed p rest hcl⟩
  -- all locks are free
  have nw : ∀ p, s.sh.writer p = false := by
    intro p
    have h1 := h.wr p
    have h2 : s.ths.countP (holdsW fio p) = 0 := by
      rw [List.countP_eq_zero]
      intro t ht
      simp [holdsW, nb t ht]
    have h3 : s.cls.countP (holdsC p) = 0 := by
      rw [List.countP_eq_zero]
      intro c hc
      simp [holdsC, ncb c hc]
    rw [h2, h3] at h1
    cases hh : s.sh.writer p
    · rfl
    · rw [hh] at h1; cases h1
  apply hn
  constructor
  · intro t ht
    have hl := lift t ht (ncut t (mv t ht))
    have hb := nb t ht
    cases hpc : t.pc with
    | done r => exact ⟨r, rfl⟩
    | pending => rw [hpc] at hb; cases hb
    | move k => rw [hpc] at hb; cases hb
    | top =>
      exfalso; apply hl
      cases hls : t.ls with
      | nil => exact ⟨_, _, .finish s.sh t hpc hls⟩
      | cons l rest =>
        by_cases hs : sliceOk t l
        · cases he : fio.torInfo.flist[l.fidx]? with
          | none => exact ⟨_, _, .noEntry s.sh t l rest hpc hls hs he⟩
          | some e =>
            by_cases ho : e.base.localPath ∈ fio.opened
            · cases hw : t.write
              · exact ⟨_, _, .rlock s.sh t l rest e hpc hls hs he ho hw (nw _)⟩
              · exact ⟨_, _, .announce s.sh t l rest e hpc hls hs he ho hw (nw _)⟩
            · exact ⟨_, _, .noPath s.sh t l rest e hpc hls hs he ho⟩
        · exact ⟨_, _, .slice s.sh t l rest hpc hls hs⟩
  · intro c hc
    have hl := clift c hc
    have hb := ncb c hc
    obtain ⟨todo, pc⟩ := c
    cases pc with
    | done r => exact ⟨r, rfl⟩
    | pending => cases hb
    | held => cases hb
    | top =>
      exfalso; apply hl
      cases todo with
      | nil => exact ⟨_, _, _, .finish s.sh s.closed⟩
      | cons p rest =>
        by_cases ho : p ∈ fio.opened
        · exact ⟨_, _, _, .announce s.sh s.closed p rest ho (nw p)⟩
        · exact ⟨_, _, _, .noPath s.sh s.closed p rest ho⟩

/-! ### termination -/

/-- bound on the number of steps of a goroutine that closes files -/
def Closer.measure (c : Closer) : Nat :=
  match c.pc with
  | .top => 1 + 3 * c.todo.length
  | .pending => 3 * c.todo.length
  | .held => 3 * c.todo.length - 1
  | .done _ => 0

def St.measure (s : St) : Nat := (s.ths.map Th.measure).sum + (s.cls.map Closer.measure).sum

theorem CInv.measure {fio : FileIO} {faulty : Bool} {s s' : St} (h : CInv fio s) (hs : Step fio faulty s s') : s'.measure < s.measure := by
  unfold St.measure
  cases hs with
  | work j t t' sh' hj hc ht =>
    have := sum_set _ _ _ _ _ hj (ht.measure (h.wf t (List.mem_of_getElem? hj)))
    simp only; omega
  | cut j t l rest e k hj hpc hl he hc hk =>
    have := sum_set _ _ _ _ _ hj ((TStep.fail (faulty := true) s.sh t l rest e k rfl hpc hl he).measure (h.wf t (List.mem_of_getElem? hj)))
    simp only; omega
  | closing j c c' sh' cl' hj hc =>
    have hlt : c'.measure < c.measure := by
      cases hc <;> simp only [Closer.measure, List.length_cons, List.length_nil] <;> omega
    have := sum_set _ _ _ _ _ hj hlt
    simp only; omega

theorem CInv.inevitable {fio : FileIO} {faulty : Bool} {s : St} (h : CInv fio s) : Inevitable (Step fio faulty) AllBack s := by
  generalize hn : s.measure = n
  induction n using Nat.strongRecOn generalizing s with
  | ind n ih =>
    by_cases hall : AllBack s
    · exact .now s hall
    · refine .next s (h.progress hall) ?_
      intro s' hs
      have := h.measure hs
      exact ih s'.measure (by omega) (h.step hs) rfl

end Verif.FileClose
