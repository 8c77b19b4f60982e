import Verif.Lemmas.FileClose
/-
Closing files while pieces are read and written: every execution is, as far as the files and the successful calls are concerned, an execution without
closed files (Model/FileConc) in which some calls have not gone on.
-/
set_option autoImplicit false

namespace Verif.FileClose
open Verif.Files Verif.FS Verif.FileIO Verif.FileConc Verif.Lts

/-- as long as nothing was transferred, a goroutine might as well not have taken the lock -/
def settle (t : Th) : Th :=
  match t.pc with
  | .pending => { t with pc := .top }
  | .move 0 => { t with pc := .top }
  | _ => t

/-- the call `t` met a closed file -/
def Ended (fio : FileIO) (closed : Bytes → Bool) (t : Th) : Prop :=
  t.pc = .done (.err .os) ∧ ∃ l rest e, t.ls = l :: rest ∧ fio.torInfo.flist[l.fidx]? = some e ∧ closed e.base.localPath = true ∧
    0 < l.loc.readAmnt.toNat

/-- a goroutine with and without closed files: where the call has met a closed file, the other one waits at this file -/
def Rel (fio : FileIO) (closed : Bytes → Bool) (t t0 : Th) : Prop :=
  t0 = settle t ∨ Ended fio closed t ∧ t0 = { t with pc := .top }

structure Sim (fio : FileIO) (s : St) (s0 : FileConc.St) : Prop where
  fs : s0.sh.fs = s.sh.fs
  lin : LInv fio s0
  len : s0.ths.length = s.ths.length
  rel : ∀ (j : Nat) t, s.ths[j]? = some t → ∃ t0, s0.ths[j]? = some t0 ∧ Rel fio s.closed t t0

theorem settle_move {t : Th} (h : (settle t).pc.isBusy = true) : settle t = t ∧ t.pc.isMove = true := by
  unfold settle at h ⊢
  split at h
  · simp [Pc.isBusy] at h
  · simp [Pc.isBusy] at h
  · rename_i h1 h2
    cases hpc : t.pc with
    | top => rw [hpc] at h; cases h
    | done r => rw [hpc] at h; cases h
    | pending => exact absurd hpc h1
    | move k =>
      cases k with
      | zero => exact absurd hpc h2
      | succ k => exact ⟨rfl, rfl⟩

/-- who holds a lock without closed files holds it with them -/
theorem Sim.holder {fio : FileIO} {s : St} {s0 : FileConc.St} (h : Sim fio s s0) {v0 : Th} (hv : v0 ∈ s0.ths) (hb : v0.pc.isBusy = true) :
    v0 ∈ s.ths ∧ v0.pc.isMove = true := by
  obtain ⟨j, hj⟩ := List.mem_iff_getElem?.mp hv
  obtain ⟨hjl, -⟩ := List.getElem?_eq_some_iff.mp hj
  rw [h.len] at hjl
  obtain ⟨t0, h1, h2⟩ := h.rel j _ (List.getElem?_eq_getElem hjl)
  rw [hj] at h1; cases h1
  rcases h2 with h2 | ⟨-, h2⟩
  · rw [h2] at hb ⊢
    obtain ⟨e1, e2⟩ := settle_move hb
    rw [e1]
    exact ⟨List.getElem_mem hjl, e2⟩
  · rw [h2] at hb; cases hb

/-- a step that begins with a transfer does not depend on the locks -/
theorem move_any {fio : FileIO} {s s' : Shared} {t t' : Th} (h : TStep fio false s t s' t') (hm : t.pc.isMove = true) (s0 : Shared) (hf : s0.fs = s.fs) :
    ∃ s0', TStep fio false s0 t s0' t' ∧ s0'.fs = s'.fs := by
  have hrel : ∀ (x : Shared) (w : Bool) (p : Bytes), (x.release w p).fs = x.fs := by
    intro x w p; cases w <;> rfl
  cases h with
  | finish hpc hl => rw [hpc] at hm; cases hm
  | slice l rest hpc hl hb => rw [hpc] at hm; cases hm
  | noEntry l rest hpc hl hb he => rw [hpc] at hm; cases hm
  | noPath l rest e hpc hl hb he ho => rw [hpc] at hm; cases hm
  | rlock l rest e hpc hl hb he ho hwr hfree => rw [hpc] at hm; cases hm
  | announce l rest e hpc hl hb he ho hwr hfree => rw [hpc] at hm; cases hm
  | lock l rest e hpc hl he hfree => rw [hpc] at hm; cases hm
  | get l rest e k m c hpc hl he hwr hc hs0 hm0 hk hlen =>
    exact ⟨_, .get s0 t l rest e k m c hpc hl he hwr (by rw [hf]; exact hc) hs0 hm0 hk hlen, hf⟩
  | put l rest e k m c hpc hl he hwr hc hs0 hm0 hk =>
    exact ⟨_, .put s0 t l rest e k m c hpc hl he hwr (by rw [hf]; exact hc) hs0 hm0 hk, by simp only; rw [hf]⟩
  | eof l rest e k c hpc hl he hwr hc hs0 hk hlen =>
    exact ⟨_, .eof s0 t l rest e k c hpc hl he hwr (by rw [hf]; exact hc) hs0 hk hlen, by rw [hrel, hrel, hf]⟩
  | negative l rest e k hpc hl he hs0 =>
    exact ⟨_, .negative s0 t l rest e k hpc hl he (by rw [hf]; exact hs0), by rw [hrel, hrel, hf]⟩
  | fail l rest e k hff hpc hl he => cases hff
  | release l rest e k c hpc hl he hc hs0 hk =>
    exact ⟨_, .release s0 t l rest e k c hpc hl he (by rw [hf]; exact hc) hs0 hk, by rw [hrel, hrel, hf]⟩

theorem set_self {α : Type} (l : List α) (j : Nat) (a : α) (h : l[j]? = some a) : l.set j a = l := by
  apply List.ext_getElem?
  intro i
  rw [List.getElem?_set]
  split
  · rename_i e; subst e
    obtain ⟨hj, -⟩ := List.getElem?_eq_some_iff.mp h
    rw [if_pos hj, h]
  · rfl

/-- a goroutine that transfers data can have the lock without closed files too -/
theorem Sim.acquire {fio : FileIO} {s : St} {s0 i0 : FileConc.St} (hc : CInv fio s) (h : Sim fio s s0) (hr : Reach (FileConc.Step fio false) i0 s0)
    {j : Nat} {t : Th} (hj : s.ths[j]? = some t) (hm : t.pc.isMove = true) :
    ∃ s1, Reach (FileConc.Step fio false) i0 s1 ∧ LInv fio s1 ∧ s1.sh.fs = s0.sh.fs ∧ s1.ths = s0.ths.set j t := by
  obtain ⟨t0, h1, h2⟩ := h.rel j t hj
  have hmem := List.mem_of_getElem? hj
  obtain ⟨hjl, -⟩ := List.getElem?_eq_some_iff.mp h1
  cases hpc : t.pc with
  | top => rw [hpc] at hm; cases hm
  | pending => rw [hpc] at hm; cases hm
  | done r => rw [hpc] at hm; cases hm
  | move k =>
    rcases h2 with h2 | ⟨⟨h2, -⟩, -⟩
    case inr => rw [hpc] at h2; cases h2
    cases k with
    | succ k =>
      have : settle t = t := by unfold settle; rw [hpc]; rfl
      rw [this] at h2; subst h2
      exact ⟨s0, hr, h.lin, rfl, (set_self _ _ _ h1).symm⟩
    | zero =>
      have hset : settle t = { t with pc := .top } := by unfold settle; rw [hpc]; rfl
      rw [hset] at h2; subst h2
      obtain ⟨l, rest, e, hl, he⟩ := (hc.wf t hmem).busy (by rw [hpc]; rfl)
      obtain ⟨hok, ho⟩ := hc.able t hmem (.inr hpc) l rest e hl he
      have hp := headPath_eq hl he
      -- the lock is free
      have hfree : s0.sh.writer e.base.localPath = false := by
        cases hw : s0.sh.writer e.base.localPath
        · rfl
        · exfalso
          have hcnt := h.lin.wr e.base.localPath
          rw [hw] at hcnt
          obtain ⟨j', v, hv, hf⟩ := exists_of_countP (f := holdsW fio e.base.localPath) (l := s0.ths) (by rw [← hcnt]; decide)
          have hf' := hf
          unfold holdsW at hf'
          simp only [Bool.and_eq_true] at hf'
          obtain ⟨m1, m2⟩ := h.holder (List.mem_of_getElem? hv) hf'.1.2
          have h0 := hc.excl _ v m1 hf m2
          cases hwr : t.write
          · have : 0 < s.ths.countP (holdsR fio e.base.localPath) := List.countP_pos_iff.mpr ⟨t, hmem, by simp [holdsR, hwr, hm, hp]⟩
            rw [← hc.rd] at this; omega
          · -- `v` and `t` would both hold the lock
            have ht : holdsW fio e.base.localPath t = true := by simp [holdsW, hwr, hpc, Pc.isBusy, hp]
            obtain ⟨hvl, -⟩ := List.getElem?_eq_some_iff.mp hv
            rw [h.len] at hvl
            obtain ⟨v0, q1, q2⟩ := h.rel j' _ (List.getElem?_eq_getElem hvl)
            rw [hv] at q1; cases q1
            have hvj : s.ths[j']? = some v := by
              rw [List.getElem?_eq_getElem hvl]
              rcases q2 with q2 | ⟨-, q2⟩
              · have := settle_move (t := s.ths[j']) (by rw [← q2]; exact hf'.1.2)
                rw [q2, this.1]
              · rw [q2] at m2; cases m2
            have hne : j ≠ j' := by
              intro hjj; subst hjj
              rw [h1] at hv; cases hv
              cases m2
            have hb := countP_put (holdsW fio e.base.localPath) s.ths j t ⟨false, [], [], 0, .top⟩ hj
            have hx : holdsW fio e.base.localPath ⟨false, [], [], 0, .top⟩ = false := rfl
            have hj' : (s.ths.set j ⟨false, [], [], 0, .top⟩)[j']? = some v := by
              rw [List.getElem?_set, if_neg hne]; exact hvj
            have hg := countP_ge (holdsW fio e.base.localPath) _ j' v hj'
            rw [ht, hx] at hb
            rw [hf] at hg
            have hle := hc.wr e.base.localPath
            have := Bool.toNat_le (s.sh.writer e.base.localPath)
            simp only [Bool.toNat_true, Bool.toNat_false] at hb hg
            omega
      cases hwr : t.write
      · have st : FileConc.Step fio false s0 _ :=
          .mk s0 j _ _ _ h1 (.rlock s0.sh { t with pc := .top } l rest e rfl hl hok he ho hwr hfree)
        refine ⟨_, hr.tail _ _ st, h.lin.step st, rfl, ?_⟩
        simp only
        congr 1
        cases t; simp_all
      · have hr0 : s0.sh.readers e.base.localPath = 0 := by
          rcases Nat.eq_zero_or_pos (s0.sh.readers e.base.localPath) with h0 | h0
          · exact h0
          · exfalso
            rw [h.lin.rd] at h0
            obtain ⟨j', v, hv, hf⟩ := exists_of_countP h0
            have hf' := hf
            unfold holdsR at hf'
            simp only [Bool.and_eq_true] at hf'
            have hb : v.pc.isBusy = true := by
              cases hvp : v.pc <;> rw [hvp] at hf' <;> first | rfl | (simp [Pc.isMove] at hf')
            obtain ⟨m1, -⟩ := h.holder (List.mem_of_getElem? hv) hb
            have : 0 < s.ths.countP (holdsR fio e.base.localPath) := List.countP_pos_iff.mpr ⟨v, m1, hf⟩
            rw [← hc.rd] at this
            have := hc.excl e.base.localPath t hmem (by simp [holdsW, hwr, hpc, Pc.isBusy, hp]) hm
            omega
        have st : FileConc.Step fio false s0 _ :=
          .mk s0 j _ _ _ h1 (.announce s0.sh { t with pc := .top } l rest e rfl hl hok he ho hwr hfree)
        have l1 := h.lin.step st
        have st2 : FileConc.Step fio false _ _ :=
          .mk ⟨s0.sh.announce e.base.localPath, s0.ths.set j { t with pc := .pending }⟩ j { t with pc := .pending } _ _
            (by simp only; rw [List.getElem?_set, if_pos rfl, if_pos hjl]) (.lock _ _ l rest e rfl hl he hr0)
        refine ⟨_, (hr.tail _ _ st).tail _ _ st2, l1.step st2, rfl, ?_⟩
        simp only [List.set_set]
        congr 1
        cases t; simp_all

/-- one goroutine is exchanged on both sides -/
theorem rel_set {fio : FileIO} {closed : Bytes → Bool} {ths ths0 : List Th} (hlen : ths0.length = ths.length)
    (h : ∀ (j : Nat) t, ths[j]? = some t → ∃ t0, ths0[j]? = some t0 ∧ Rel fio closed t t0) {j : Nat} {t' t0' : Th} (hr : Rel fio closed t' t0') :
    ∀ (i : Nat) t, (ths.set j t')[i]? = some t → ∃ t0, (ths0.set j t0')[i]? = some t0 ∧ Rel fio closed t t0 := by
  intro i t hi
  rw [List.getElem?_set] at hi ⊢
  split at hi
  · rename_i e; subst e
    split at hi
    · rename_i hl
      cases hi
      rw [if_pos rfl, if_pos (by omega)]
      exact ⟨_, rfl, hr⟩
    · cases hi
  · rename_i hne
    rw [if_neg hne]
    exact h i t hi

theorem settle_top {t : Th} (h : t.pc = .top) : settle t = t := by unfold settle; rw [h]
theorem settle_done {t : Th} {r : Res Nat} (h : t.pc = .done r) : settle t = t := by unfold settle; rw [h]

theorem settle_back {t : Th} (h : t.pc = .top) : settle { t with pc := .move 0 } = t ∧ settle { t with pc := .pending } = t := by
  obtain ⟨w, b, ls, o, pc⟩ := t
  simp only at h
  subst h
  exact ⟨rfl, rfl⟩

theorem ended_top {fio : FileIO} {cl : Bytes → Bool} {t t0 : Th} (h : Rel fio cl t t0) (hd : t.pc.isDone = false) : t0 = settle t := by
  rcases h with h | ⟨⟨h, -⟩, -⟩
  · exact h
  · rw [h] at hd; cases hd

theorem Sim.step {fio : FileIO} {faulty : Bool} {s s' : St} {s0 i0 : FileConc.St} (hc : CInv fio s) (h : Sim fio s s0)
    (hr : Reach (FileConc.Step fio false) i0 s0) (hs : Step fio faulty s s') : ∃ s0', Reach (FileConc.Step fio false) i0 s0' ∧ Sim fio s' s0' := by
  cases hs with
  | closing j c c' sh' cl' hj hst =>
    have hfs : sh'.fs = s.sh.fs := by cases hst <;> rfl
    have hmono : ∀ p, s.closed p = true → cl' p = true := by
      intro p hp
      cases hst <;> first | exact hp | (simp only; split <;> first | rfl | exact hp)
    refine ⟨s0, hr, by rw [hfs]; exact h.fs, h.lin, h.len, ?_⟩
    intro j t hj
    obtain ⟨t0, h1, h2⟩ := h.rel j t hj
    refine ⟨t0, h1, ?_⟩
    rcases h2 with h2 | ⟨⟨h2, l, rest, e, h3, h4, h5, h7⟩, h6⟩
    · exact .inl h2
    · exact .inr ⟨⟨h2, l, rest, e, h3, h4, hmono _ h5, h7⟩, h6⟩
  | cut j t l rest e k hj hpc hl he hcl hk =>
    have hk0 := hc.zero t (List.mem_of_getElem? hj) k l rest e hpc hl he hcl
    subst hk0
    obtain ⟨t0, h1, h2⟩ := h.rel j t hj
    have h2 := ended_top h2 (by rw [hpc]; rfl)
    have hset : settle t = { t with pc := .top } := by unfold settle; rw [hpc]; rfl
    rw [hset] at h2
    have hfs : (s.sh.release t.write e.base.localPath).fs = s.sh.fs := by unfold Shared.release; split <;> rfl
    refine ⟨s0, hr, by simp only; rw [hfs]; exact h.fs, h.lin, by simp only [List.length_set]; exact h.len, ?_⟩
    have := rel_set (fio := fio) (closed := s.closed) h.len h.rel (j := j) (t' := { t with pc := .done (.err .os) }) (t0' := t0)
      (.inr ⟨⟨rfl, l, rest, e, hl, he, hcl, hk⟩, by rw [h2]⟩)
    rw [set_self _ _ _ h1] at this
    exact this
  | work j t t' sh' hj hcut ht =>
    obtain ⟨t0, h1, h2⟩ := h.rel j t hj
    obtain ⟨hjl, -⟩ := List.getElem?_eq_some_iff.mp h1
    -- a step that is not seen
    have idle : sh'.fs = s.sh.fs → settle t' = settle t → t.pc.isDone = false →
        ∃ s0', Reach (FileConc.Step fio false) i0 s0' ∧ Sim fio ⟨sh', s.closed, s.ths.set j t', s.cls⟩ s0' := by
      intro hf hse hd
      have h2 := ended_top h2 hd
      refine ⟨s0, hr, by simp only; rw [hf]; exact h.fs, h.lin, by simp only [List.length_set]; exact h.len, ?_⟩
      have := rel_set (fio := fio) (closed := s.closed) h.len h.rel (j := j) (t' := t') (t0' := t0) (.inl (by rw [h2, hse]))
      rw [set_self _ _ _ h1] at this
      exact this
    -- the same step
    have same : ∀ s1, Reach (FileConc.Step fio false) i0 s1 → LInv fio s1 → s1.ths = s0.ths.set j t → ∀ sh1,
        TStep fio false s1.sh t sh1 t' → sh1.fs = sh'.fs → settle t' = t' →
        ∃ s0', Reach (FileConc.Step fio false) i0 s0' ∧ Sim fio ⟨sh', s.closed, s.ths.set j t', s.cls⟩ s0' := by
      intro s1 r1 l1 e1 sh1 st hf hse
      have stp : FileConc.Step fio false s1 ⟨sh1, s1.ths.set j t'⟩ :=
        .mk s1 j t t' sh1 (by rw [e1, List.getElem?_set, if_pos rfl, if_pos hjl]) st
      refine ⟨_, r1.tail _ _ stp, hf, l1.step stp, ?_, ?_⟩
      · simp only [e1, List.length_set]; exact h.len
      · simp only [e1, List.set_set]
        exact rel_set h.len h.rel (.inl hse.symm)
    have moved : t.pc.isMove = true → settle t' = t' →
        ∃ s0', Reach (FileConc.Step fio false) i0 s0' ∧ Sim fio ⟨sh', s.closed, s.ths.set j t', s.cls⟩ s0' := by
      intro hm hse
      obtain ⟨s1, r1, l1, f1, e1⟩ := h.acquire hc hr hj hm
      obtain ⟨sh1, st, hf⟩ := move_any ht hm s1.sh (by rw [f1, h.fs])
      exact same s1 r1 l1 e1 sh1 st hf hse
    have topped : t.pc = .top → s0.ths = s0.ths.set j t := by
      intro hpc
      have h2 := ended_top h2 (by rw [hpc]; rfl)
      rw [settle_top hpc] at h2
      rw [← h2, set_self _ _ _ h1]
    cases ht with
    | finish hpc hl => exact same s0 hr h.lin (topped hpc) s0.sh (.finish _ _ hpc hl) h.fs (settle_done rfl)
    | slice l rest hpc hl hb => exact same s0 hr h.lin (topped hpc) s0.sh (.slice _ _ l rest hpc hl hb) h.fs (settle_done rfl)
    | noEntry l rest hpc hl hb he => exact same s0 hr h.lin (topped hpc) s0.sh (.noEntry _ _ l rest hpc hl hb he) h.fs (settle_done rfl)
    | noPath l rest e hpc hl hb he ho => exact same s0 hr h.lin (topped hpc) s0.sh (.noPath _ _ l rest e hpc hl hb he ho) h.fs (settle_done rfl)
    | rlock l rest e hpc hl hb he ho hwr hfree =>
      refine idle rfl ?_ (by rw [hpc]; rfl)
      rw [settle_top hpc]
      exact (settle_back hpc).1
    | announce l rest e hpc hl hb he ho hwr hfree =>
      refine idle rfl ?_ (by rw [hpc]; rfl)
      rw [settle_top hpc]
      exact (settle_back hpc).2
    | lock l rest e hpc hl he hfree =>
      refine idle rfl ?_ (by rw [hpc]; rfl)
      show { t with pc := .top } = settle t
      unfold settle; rw [hpc]
    | get l rest e k m c hpc hl he hwr hcc hs0 hm0 hk hlen =>
      refine moved (by rw [hpc]; rfl) ?_
      obtain ⟨m', rfl⟩ : ∃ m', m = m' + 1 := ⟨m - 1, by omega⟩
      rfl
    | put l rest e k m c hpc hl he hwr hcc hs0 hm0 hk =>
      refine moved (by rw [hpc]; rfl) ?_
      obtain ⟨m', rfl⟩ : ∃ m', m = m' + 1 := ⟨m - 1, by omega⟩
      rfl
    | eof l rest e k c hpc hl he hwr hcc hs0 hk hlen => exact moved (by rw [hpc]; rfl) (settle_done rfl)
    | negative l rest e k hpc hl he hs0 => exact moved (by rw [hpc]; rfl) (settle_done rfl)
    | fail l rest e k hff hpc hl he => cases hff
    | release l rest e k c hpc hl he hcc hs0 hk => exact moved (by rw [hpc]; rfl) (settle_top rfl)

theorem reach_sim {H : Bytes → Bytes} {fio : FileIO} {ti : TorInfo} {fs : FS.State} {calls : List Call} {closings : List Closing} {faulty : Bool} {s : St}
    (hr : Reach (Step fio faulty) (init H ti fs calls closings) s) :
    ∃ s0, Reach (FileConc.Step fio false) (FileConc.init H ti fs calls) s0 ∧ Sim fio s s0 := by
  induction hr with
  | refl =>
    refine ⟨_, .refl, rfl, start_linv H fio ti fs calls, rfl, ?_⟩
    intro j t hj
    refine ⟨t, hj, .inl ?_⟩
    obtain ⟨c, -, rfl⟩ := List.mem_map.mp (List.mem_of_getElem? hj)
    cases c with
    | read i buf => unfold start startRead; simp only; split <;> rfl
    | write i d spare =>
      unfold start startWrite; simp only
      split
      · split
        · split <;> rfl
        all_goals rfl
      all_goals rfl
  | tail s' s'' hr' hs ih =>
    obtain ⟨s0, r0, sim⟩ := ih
    exact sim.step (reach_cinv hr') r0 hs

end Verif.FileClose
