import Verif.Lemmas.FileCloseSim
import Verif.Props.FileConcParts
/-
C127: closing files while pieces are read and written.
-/
set_option autoImplicit false

namespace Verif.FileClose
open Verif.Files Verif.FS Verif.FileIO Verif.Layout Verif.Lts Verif.FileConc

/-- piece `i` (of `n` bytes) has a byte in file `kf` -/
def HasPart (lns : List Nat) (pl i n kf : Nat) : Prop := ∃ o, o < n ∧ startPos lns kf ≤ i * pl + o ∧ i * pl + o < startPos lns (kf + 1)

/-- **C127**, no deadlock: all calls of ReadPiece, WritePiece, Close and CloseAll return, whatever the schedule. -/
theorem C127_all_return (H : Bytes → Bytes) (fio : FileIO) (ti : TorInfo) (fs : FS.State) (calls : List Call) (closings : List Closing) (faulty : Bool) :
    Inevitable (Step fio faulty) AllBack (init H ti fs calls closings) :=
  (init_cinv H fio ti fs calls closings).inevitable

/-- **C127**, closed files: a file stays closed, and its content is not changed any more, by none of the calls that are under way. -/
theorem C127_closed (fio : FileIO) (faulty : Bool) (s s' : St) (p : Bytes) (hp : s.closed p = true) (hr' : Reach (Step fio faulty) s s') :
    s'.closed p = true ∧ s'.sh.fs p = s.sh.fs p := by
  induction hr' with
  | refl => exact ⟨hp, rfl⟩
  | tail s1 s2 _ hs ih =>
    obtain ⟨h1, h2⟩ := ih
    rw [← h2]
    cases hs with
    | work j t t' sh' hj hc ht =>
      refine ⟨h1, ?_⟩
      cases ht with
      | put l rest e k m c hpc hl he hwr hcc hs0 hm hk =>
        simp only [State.set]
        rw [if_neg]
        rintro rfl
        exact hc ⟨l, rest, e, k, hpc, hl, he, h1, by omega⟩
      | eof => simp only; rw [release_fs]
      | fail _ _ _ _ hf => cases hf
      | negative => simp only; rw [release_fs]
      | release => simp only; rw [release_fs]
      | _ => rfl
    | cut j t l rest e k hj hpc hl he hcl hk => exact ⟨h1, by simp only; rw [release_fs]⟩
    | closing j c c' sh' cl' hj hst =>
      cases hst <;> exact ⟨by first | exact h1 | (simp only; split <;> first | rfl | exact h1), rfl⟩

/-- **C127**, what is read: a successful ReadPiece delivers, file by file, the bytes of the beginning or those of one of the writes, also if files are closed
meanwhile. -/
theorem C127_reads (H : Bytes → Bytes) (pl : Nat) (hashes : Bytes) (files : List EntryBase) (ti : TorInfo) (h : Accepted pl hashes files ti)
    (hd : (files.map EntryBase.localPath).Nodup) (fs : FS.State) (cs : List Bytes) (hs : Stored fs files cs) (calls : List Call)
    (hz : Sized H hashes ti.numPieces pl cs.flatten calls) (closings : List Closing) (faulty : Bool) (s : St)
    (hr : Reach (Step (openedAll ti) faulty) (init H ti fs calls closings) s) (i : Nat) (hi : i < ti.numPieces) (j : Nat) (buf : Bytes) (t : Th) (n : Nat)
    (hc : calls[j]? = some (.read i buf)) (ht : s.ths[j]? = some t) (hpc : t.pc = .done (.ok n)) :
    ∃ x, t.buf = x ++ buf.drop n ∧ x.length = n ∧ Mixture H hashes ti.numPieces pl (Files.lens files) cs.flatten calls i x := by
  obtain ⟨s0, r0, sim⟩ := reach_sim hr
  obtain ⟨t0, h1, h2⟩ := sim.rel j t ht
  have : t0 = t := by
    rcases h2 with h2 | ⟨⟨h2, -⟩, -⟩
    · rw [h2, settle_done hpc]
    · rw [hpc] at h2; cases h2
  subst this
  exact (C74_parts H pl hashes files ti h hd fs cs hs calls hz i hi s0 r0).1 j buf t0 n hc h1 hpc

/-- **C127**, what is on disk when all have returned: every piece is, file by file, as it was at the beginning or as one of the writes has it – a write that
met a closed file has written its part of a file completely or not at all – and nothing else was changed. -/
theorem C127_disk (H : Bytes → Bytes) (pl : Nat) (hashes : Bytes) (files : List EntryBase) (ti : TorInfo) (h : Accepted pl hashes files ti)
    (hd : (files.map EntryBase.localPath).Nodup) (fs : FS.State) (cs : List Bytes) (hs : Stored fs files cs) (calls : List Call)
    (hz : Sized H hashes ti.numPieces pl cs.flatten calls) (closings : List Closing) (faulty : Bool) (s : St)
    (hr : Reach (Step (openedAll ti) faulty) (init H ti fs calls closings) s) (hall : AllBack s) :
    (∀ p, p ∉ files.map EntryBase.localPath → s.sh.fs p = fs p) ∧
    ∀ i, i < ti.numPieces → ∃ cs', Stored s.sh.fs files cs' ∧
      Mixture H hashes ti.numPieces pl (Files.lens files) cs.flatten calls i (pieceOf cs'.flatten pl i) := by
  obtain ⟨s0, r0, sim⟩ := reach_sim hr
  rw [← sim.fs]
  refine ⟨?_, ?_⟩
  · obtain ⟨cs', -, h2, -⟩ := C74_bytes H pl hashes files ti h hd fs cs hs calls hz false s0 r0
    exact h2
  · intro i hi
    refine (C74_parts H pl hashes files ti h hd fs cs hs calls hz i hi s0 r0).2 ?_
    intro t0 ht0
    cases hm : t0.pc.isMove
    · rfl
    · exfalso
      have hb : t0.pc.isBusy = true := by
        cases hpc : t0.pc <;> rw [hpc] at hm <;> first | rfl | cases hm
      obtain ⟨m1, m2⟩ := sim.holder ht0 hb
      obtain ⟨r, hpc⟩ := hall.1 t0 m1
      rw [hpc] at m2; cases m2

/-- **C127**, what is written: after a successful WritePiece every byte of the piece is one of a valid write, and if it is the only data written for this piece
then the piece has this data. -/
theorem C127_written (H : Bytes → Bytes) (pl : Nat) (hashes : Bytes) (files : List EntryBase) (ti : TorInfo) (h : Accepted pl hashes files ti)
    (hd : (files.map EntryBase.localPath).Nodup) (fs : FS.State) (cs : List Bytes) (hs : Stored fs files cs) (calls : List Call)
    (hz : Sized H hashes ti.numPieces pl cs.flatten calls) (closings : List Closing) (faulty : Bool) (s : St)
    (hr : Reach (Step (openedAll ti) faulty) (init H ti fs calls closings) s) :
    ∃ cs', Stored s.sh.fs files cs' ∧
      ∀ (j : Nat) (i : Int) (d spare : Bytes) (t : Th) (n : Nat), calls[j]? = some (.write i d spare) → s.ths[j]? = some t → t.pc = .done (.ok n) →
        ∃ k : Nat, i = k ∧ IsWrite H hashes ti.numPieces calls k d ∧ n = d.length ∧
          (∀ o < n, ∃ v, cs'.flatten[k * pl + o]? = some v ∧ Written H hashes ti.numPieces pl calls (k * pl + o) v) ∧
          ((∀ d', IsWrite H hashes ti.numPieces calls k d' → d' = d) → pieceOf cs'.flatten pl k = d) := by
  obtain ⟨s0, r0, sim⟩ := reach_sim hr
  obtain ⟨cs', h1, h2⟩ := C74_written H pl hashes files ti h hd fs cs hs calls hz false s0 r0
  rw [sim.fs] at h1
  refine ⟨cs', h1, ?_⟩
  intro j i d spare t n hc ht hpc
  obtain ⟨t0, q1, q2⟩ := sim.rel j t ht
  have : t0 = t := by
    rcases q2 with q2 | ⟨⟨q2, -⟩, -⟩
    · rw [q2, settle_done hpc]
    · rw [hpc] at q2; cases q2
  subst this
  exact h2 j i d spare t0 n hc q1 hpc

/-- **C127**, results: a call returns the number of bytes or an error; for an existing piece (and data with the right hash) the error can only be that
of a closed file, and then a file with bytes of this piece was closed. -/
theorem C127_results (H : Bytes → Bytes) (pl : Nat) (hashes : Bytes) (files : List EntryBase) (ti : TorInfo) (h : Accepted pl hashes files ti)
    (hd : (files.map EntryBase.localPath).Nodup) (fs : FS.State) (cs : List Bytes) (hs : Stored fs files cs) (calls : List Call)
    (hz : Sized H hashes ti.numPieces pl cs.flatten calls) (closings : List Closing) (faulty : Bool) (s : St)
    (hr : Reach (Step (openedAll ti) faulty) (init H ti fs calls closings) s) (j : Nat) (t : Th) (r : Res Nat) (ht : s.ths[j]? = some t)
    (hpc : t.pc = .done r) :
    (∀ (i : Int) buf, calls[j]? = some (.read i buf) →
      (¬ (0 ≤ i ∧ i < ti.numPieces) ∧ ∃ e, r = .err e) ∨
      ∃ k : Nat, i = k ∧ k < ti.numPieces ∧ (r = .ok (pieceOf cs.flatten pl k).length ∨ r = .err .os ∧ ∃ kf f, files[kf]? = some f ∧
        s.closed f.localPath = true ∧ HasPart (Files.lens files) pl k (pieceOf cs.flatten pl k).length kf)) ∧
    (∀ (i : Int) d spare, calls[j]? = some (.write i d spare) →
      ((∀ k : Nat, i = k → ¬ IsWrite H hashes ti.numPieces calls k d) ∧ ∃ e, r = .err e) ∨
      ∃ k : Nat, i = k ∧ IsWrite H hashes ti.numPieces calls k d ∧ (r = .ok d.length ∨ r = .err .os ∧ ∃ kf f, files[kf]? = some f ∧
        s.closed f.localPath = true ∧ HasPart (Files.lens files) pl k (pieceOf cs.flatten pl k).length kf)) := by
  obtain ⟨s0, r0, sim⟩ := reach_sim hr
  obtain ⟨t0, q1, q2⟩ := sim.rel j t ht
  obtain ⟨cs', g, -⟩ := ginv_reach H h hd hs calls hz false s0 r0
  have hpart : ∀ (k : Nat), Pos (Files.lens files) (k * pl) (pieceOf cs.flatten pl k).length t0 → Ended (openedAll ti) s.closed t → t0 = { t with pc := .top } →
      ∃ kf f, files[kf]? = some f ∧ s.closed f.localPath = true ∧ HasPart (Files.lens files) pl k (pieceOf cs.flatten pl k).length kf := by
    rintro k pos ⟨-, l, rest, e, hl, he, hcl, h0⟩ he0
    obtain ⟨a1, a2, a3⟩ := pos.head (l := l) (rest := rest) (by rw [he0]; exact hl)
    have hf := g.disk.flist l.fidx
    rw [he] at hf
    exact ⟨l.fidx, e.base, hf.symm, hcl, t0.off, by omega, a1, by omega⟩
  have hdone : t0 = settle t → t0.pc = .done r := by
    intro q; rw [q, settle_done hpc]; exact hpc
  constructor
  · intro i buf hc
    cases g.ths j _ t0 hc q1 with
    | badRead _ _ _ e hpc' hi =>
      refine .inl ⟨by rintro ⟨h1, h2⟩; exact hi i.toNat (by omega) (by omega), ?_⟩
      rcases q2 with q2 | ⟨-, q2⟩
      · rw [hdone q2] at hpc'; cases hpc'; exact ⟨e, rfl⟩
      · rw [q2] at hpc'; cases hpc'
    | read k _ _ hi hw pos rest noErr got =>
      refine .inr ⟨k, rfl, hi, ?_⟩
      rcases q2 with q2 | ⟨en, q2⟩
      · rcases pos.fin r (hdone q2) with ⟨e, rfl⟩ | ⟨rfl, ho⟩
        · exact absurd (hdone q2) (noErr rfl e)
        · exact .inl (by first | rfl | rw [ho])
      · have := en.1
        rw [hpc] at this; cases this
        exact .inr ⟨rfl, hpart k pos en q2⟩
  · intro i d spare hc
    cases g.ths j _ t0 hc q1 with
    | badWrite _ _ _ _ e hpc' hi =>
      refine .inl ⟨by rintro k rfl ⟨h1, h2, -⟩; exact hi k h1 rfl h2, ?_⟩
      rcases q2 with q2 | ⟨-, q2⟩
      · rw [hdone q2] at hpc'; cases hpc'; exact ⟨e, rfl⟩
      · rw [q2] at hpc'; cases hpc'
    | write k _ _ _ hi hw pos data noErr put =>
      refine .inr ⟨k, rfl, hi, ?_⟩
      rcases q2 with q2 | ⟨en, q2⟩
      · rcases pos.fin r (hdone q2) with ⟨e, rfl⟩ | ⟨rfl, ho⟩
        · exact absurd (hdone q2) (noErr rfl e)
        · exact .inl (by rw [hz.write k d hi])
      · have := en.1
        rw [hpc] at this; cases this
        exact .inr ⟨rfl, hpart k pos en q2⟩

/-! ### Calls that begin after a file was closed -/

/-- a call that has not yet transferred its part of a closed file -/
def Doomed (fio : FileIO) (closed : Bytes → Bool) (t : Th) : Prop :=
  (∀ r, t.pc ≠ .done r) ∧ ∃ l ∈ t.ls, 0 < l.loc.readAmnt.toNat ∧ ∃ e, fio.torInfo.flist[l.fidx]? = some e ∧ closed e.base.localPath = true

theorem doomed_step {fio : FileIO} {faulty : Bool} {s s' : St} (hc : CInv fio s) (hs : Step fio faulty s s') (j : Nat)
    (h : ∃ t, s.ths[j]? = some t ∧ (Doomed fio s.closed t ∨ ∃ r, t.pc = .done r ∧ ∀ n, r ≠ .ok n)) :
    ∃ t, s'.ths[j]? = some t ∧ (Doomed fio s'.closed t ∨ ∃ r, t.pc = .done r ∧ ∀ n, r ≠ .ok n) := by
  obtain ⟨t, ht, hd⟩ := h
  cases hs with
  | closing i c c' sh' cl' hi hst =>
    have hmono : ∀ p, s.closed p = true → cl' p = true := by
      intro p hp
      cases hst <;> first | exact hp | (simp only; split <;> first | rfl | exact hp)
    refine ⟨t, ht, ?_⟩
    rcases hd with ⟨h1, l, h2, h3, e, h4, h5⟩ | hd
    · exact .inl ⟨h1, l, h2, h3, e, h4, hmono _ h5⟩
    · exact .inr hd
  | cut i u l rest e k hi hpc hl he hcl hk =>
    by_cases hij : i = j
    · subst hij
      obtain ⟨hil, -⟩ := List.getElem?_eq_some_iff.mp hi
      exact ⟨_, by simp only; rw [List.getElem?_set, if_pos rfl, if_pos hil], .inr ⟨_, rfl, by simp⟩⟩
    · exact ⟨t, by simp only; rw [List.getElem?_set, if_neg hij]; exact ht, hd⟩
  | work i u u' sh' hi hcut hst =>
    by_cases hij : i = j
    · subst hij
      rw [ht] at hi; cases hi
      obtain ⟨hil, -⟩ := List.getElem?_eq_some_iff.mp ht
      refine ⟨u', by simp only; rw [List.getElem?_set, if_pos rfl, if_pos hil], ?_⟩
      have stay : u'.ls = t.ls → (∀ r, u'.pc ≠ .done r) → Doomed fio s.closed t → Doomed fio s.closed u' := by
        rintro e1 e2 ⟨-, h2⟩
        exact ⟨e2, by rw [e1]; exact h2⟩
      rcases hd with hd | ⟨r, hr, -⟩
      · cases hst with
        | finish hpc hl =>
          obtain ⟨-, l, h2, -⟩ := hd
          rw [hl] at h2; cases h2
        | slice l rest hpc hl hb => exact .inr ⟨_, rfl, by simp⟩
        | noEntry l rest hpc hl hb he => exact .inr ⟨_, rfl, by simp⟩
        | noPath l rest e hpc hl hb he ho => exact .inr ⟨_, rfl, by simp⟩
        | rlock l rest e hpc hl hb he ho hwr hfree => exact .inl (stay rfl (by simp) hd)
        | announce l rest e hpc hl hb he ho hwr hfree => exact .inl (stay rfl (by simp) hd)
        | lock l rest e hpc hl he hfree => exact .inl (stay rfl (by simp) hd)
        | get l rest e k m c hpc hl he hwr hcc hs0 hm0 hk hlen => exact .inl (stay rfl (by simp) hd)
        | put l rest e k m c hpc hl he hwr hcc hs0 hm0 hk => exact .inl (stay rfl (by simp) hd)
        | eof l rest e k c hpc hl he hwr hcc hs0 hk hlen => exact .inr ⟨_, rfl, by simp⟩
        | negative l rest e k hpc hl he hs0 => exact .inr ⟨_, rfl, by simp⟩
        | fail l rest e k hff hpc hl he => cases hff
        | release l rest e k c hpc hl he hcc hs0 hk =>
          obtain ⟨-, l', h2, h3, e', h4, h5⟩ := hd
          rw [hl] at h2
          rcases List.mem_cons.mp h2 with rfl | h2
          · rw [he] at h4; cases h4
            have := hc.zero t (List.mem_of_getElem? ht) k l' rest e hpc hl he h5
            omega
          · exact .inl ⟨by simp, l', h2, h3, e', h4, h5⟩
      · cases hst <;> simp_all
    · exact ⟨t, by simp only; rw [List.getElem?_set, if_neg hij]; exact ht, hd⟩

theorem consec_part {ls : List Nat} {a b : Nat} {locs : List PieceLocation} (h : Consec ls a locs b) (y : Nat) (h1 : a ≤ y) (h2 : y < b) :
    ∃ l ∈ locs, startPos ls l.fidx ≤ y ∧ y < startPos ls (l.fidx + 1) ∧ 0 < l.loc.readAmnt.toNat := by
  induction h with
  | nil => omega
  | cons a b k s r rest e1 e0 e2 hr ih =>
    rcases Nat.lt_or_ge y (a + r) with hy | hy
    · exact ⟨_, List.mem_cons_self .., by simp only; omega, by simp only; omega, by simp only [Int.toNat_natCast]; omega⟩
    · obtain ⟨l, hl, h⟩ := ih hy h2
      exact ⟨l, List.mem_cons_of_mem _ hl, h⟩

/-- **C127**, nothing succeeds through a closed file: a call for a piece with bytes in a file that was closed before the call began does not succeed. -/
theorem C127_refused (H : Bytes → Bytes) (pl : Nat) (hashes : Bytes) (files : List EntryBase) (ti : TorInfo) (h : Accepted pl hashes files ti)
    (fs : FS.State) (cs : List Bytes) (hs : Stored fs files cs) (calls : List Call) (closings : List Closing) (faulty : Bool) (s s' : St)
    (hr : Reach (Step (openedAll ti) faulty) (init H ti fs calls closings) s) (i : Nat) (hi : i < ti.numPieces) (kf : Nat) (f : EntryBase)
    (hf : files[kf]? = some f) (hp : HasPart (Files.lens files) pl i (pieceOf cs.flatten pl i).length kf) (hcl : s.closed f.localPath = true) (j : Nat)
    (c : Call) (hc : (∃ buf, c = .read i buf) ∨ ∃ d spare, c = .write i d spare) (hj : s.ths[j]? = some (start H ti c))
    (hr' : Reach (Step (openedAll ti) faulty) s s') (t : Th) (ht : s'.ths[j]? = some t) (n : Nat) : t.pc ≠ .done (.ok n) := by
  have key : ∃ t, s'.ths[j]? = some t ∧ (Doomed (openedAll ti) s'.closed t ∨ ∃ r, t.pc = .done r ∧ ∀ n, r ≠ .ok n) := by
    have hci := reach_cinv hr
    clear hr ht
    induction hr' with
    | refl =>
      refine ⟨_, hj, ?_⟩
      obtain ⟨locs, hlk, hcon⟩ := consec_end h hs.1 i hi
      obtain ⟨o, o1, o2, o3⟩ := hp
      obtain ⟨l, l1, l2, l3, l4⟩ := consec_part hcon (i * pl + o) (by omega) (by omega)
      have hk := startPos_file (Files.lens files) l.fidx kf (i * pl + o) l2 l3 o2 o3
      have hfl := (h.onDisk hs).flist kf
      rw [hf] at hfl
      obtain ⟨e, he1, he2⟩ := Option.map_eq_some_iff.mp hfl
      have hd : ∀ t : Th, t.ls = locs → (∀ r, t.pc ≠ .done r) → Doomed (openedAll ti) s.closed t := by
        intro t e1 e2
        refine ⟨e2, l, by rw [e1]; exact l1, l4, e, by rw [hk]; exact he1, by rw [he2]; exact hcl⟩
      rcases hc with ⟨buf, rfl⟩ | ⟨d, spare, rfl⟩
      · left
        apply hd
        · unfold start startRead; simp only; rw [hlk]
        · unfold start startRead; simp only; rw [hlk]; simp
      · unfold start startWrite; simp only; rw [hlk]; simp only
        cases hh : ti.PieceHash i with
        | ok kh =>
          simp only
          split
          · exact .inr ⟨_, rfl, by simp⟩
          · exact .inl (hd _ rfl (by simp))
        | err e => exact .inr ⟨_, rfl, by simp⟩
        | panic => exact .inr ⟨_, rfl, by simp⟩
        | timeout => exact .inr ⟨_, rfl, by simp⟩
    | tail s1 s2 r1 hst ih =>
      have hci1 : CInv (openedAll ti) s1 := by
        clear hst ih
        induction r1 with
        | refl => exact hci
        | tail a b _ hst ih => exact ih.step hst
      exact doomed_step hci1 hst j ih
  obtain ⟨t', h1, h2⟩ := key
  rw [ht] at h1; cases h1
  intro hpc
  rcases h2 with ⟨h2, -⟩ | ⟨r, h2, h3⟩
  · exact h2 _ hpc
  · rw [hpc] at h2; cases h2; exact h3 n rfl

/-! ### The results of Close and CloseAll -/

/-- where the goroutines that close files are: the files before `todo` are closed by themselves, and no two have closed the same file -/
structure KInv (fio : FileIO) (closings : List Closing) (s : St) (pre : Nat → List Bytes) : Prop where
  len : s.cls.length = closings.length
  split : ∀ (j : Nat) c k, s.cls[j]? = some c → closings[j]? = some k → k.paths = pre j ++ c.todo
  closed : ∀ (j : Nat) p, p ∈ pre j → s.closed p = true ∧ p ∈ fio.opened
  once : ∀ (i j : Nat) p, p ∈ pre i → p ∈ pre j → i = j
  nodup : ∀ j, (pre j).Nodup
  busy : ∀ c ∈ s.cls, c.pc.isBusy = true → ∃ p rest, c.todo = p :: rest ∧ p ∈ fio.opened
  ok : ∀ c ∈ s.cls, c.pc = .done (.ok ()) → c.todo = []
  res : ∀ c ∈ s.cls, ∀ r, c.pc = .done r → r = .ok () ∨ (∃ p rest, c.todo = p :: rest ∧
    (r = .err .path ∧ p ∉ fio.opened ∨ r = .err .os ∧ p ∈ fio.opened ∧ s.closed p = true))

theorem KInv.step {fio : FileIO} {faulty : Bool} {closings : List Closing} {s s' : St} {pre : Nat → List Bytes} (h : KInv fio closings s pre)
    (hs : Step fio faulty s s') : ∃ pre', KInv fio closings s' pre' := by
  cases hs with
  | work j t t' sh' hj hcut ht => exact ⟨pre, h.len, h.split, h.closed, h.once, h.nodup, h.busy, h.ok, h.res⟩
  | cut j t l rest e k hj hpc hl he hcl hk => exact ⟨pre, h.len, h.split, h.closed, h.once, h.nodup, h.busy, h.ok, h.res⟩
  | closing j c c' sh' cl' hj hst =>
    have hm := List.mem_of_getElem? hj
    -- steps that close nothing
    have plain : cl' = s.closed → c'.todo = c.todo → (c'.pc.isBusy = true → ∃ p rest, c'.todo = p :: rest ∧ p ∈ fio.opened) →
        (c'.pc = .done (.ok ()) → c'.todo = []) →
        (∀ r, c'.pc = .done r → r = .ok () ∨ (∃ p rest, c'.todo = p :: rest ∧
          (r = .err .path ∧ p ∉ fio.opened ∨ r = .err .os ∧ p ∈ fio.opened ∧ s.closed p = true))) →
        ∃ pre', KInv fio closings ⟨sh', cl', s.ths, s.cls.set j c'⟩ pre' := by
      intro e1 e2 b1 b2 b3
      subst e1
      refine ⟨pre, by simp only [List.length_set]; exact h.len, ?_, h.closed, h.once, h.nodup, ?_, ?_, ?_⟩
      · intro i u k hu hk
        simp only at hu
        rw [List.getElem?_set] at hu
        split at hu
        · rename_i hij; subst hij
          split at hu
          · cases hu; rw [e2]; exact h.split j c k hj hk
          · cases hu
        · exact h.split i u k hu hk
      · intro u hu hb
        rcases mem_set_of hu with hu | rfl
        · exact h.busy u hu hb
        · exact b1 hb
      · intro u hu hb
        rcases mem_set_of hu with hu | rfl
        · exact h.ok u hu hb
        · exact b2 hb
      · intro u hu r hb
        rcases mem_set_of hu with hu | rfl
        · exact h.res u hu r hb
        · exact b3 r hb
    have hmono : ∀ p', s.closed p' = true → cl' p' = true := by
      intro p' hp
      cases hst <;> first | exact hp | (simp only; split <;> first | rfl | exact hp)
    cases hst with
    | finish => exact plain rfl rfl (fun hb => by cases hb) (fun _ => rfl) (fun r hr => by cases hr; exact .inl rfl)
    | noPath p rest ho =>
      exact plain rfl rfl (fun hb => by cases hb) (fun hb => by cases hb) (fun r hr => by cases hr; exact .inr ⟨p, rest, rfl, .inl ⟨rfl, ho⟩⟩)
    | announce p rest ho hfree => exact plain rfl rfl (fun _ => ⟨p, rest, rfl, ho⟩) (fun hb => by cases hb) (fun r hr => by cases hr)
    | lock p rest hfree =>
      obtain ⟨p', rest', e1, e2⟩ := h.busy _ hm rfl
      exact plain rfl rfl (fun _ => ⟨p', rest', e1, e2⟩) (fun hb => by cases hb) (fun r hr => by cases hr)
    | again p rest hcl =>
      obtain ⟨p', rest', e1, e2⟩ := h.busy _ hm rfl
      cases e1
      exact plain rfl rfl (fun hb => by cases hb) (fun hb => by cases hb)
        (fun r hr => by cases hr; exact .inr ⟨p, rest, rfl, .inr ⟨rfl, e2, hcl⟩⟩)
    | fail p rest hf hcl =>
      obtain ⟨p', rest', e1, e2⟩ := h.busy _ hm rfl
      cases e1
      refine ⟨pre, by simp only [List.length_set]; exact h.len, ?_, fun i q hq => ⟨hmono q (h.closed i q hq).1, (h.closed i q hq).2⟩, h.once, h.nodup, ?_, ?_, ?_⟩
      · intro i u k hu hk
        simp only at hu
        rw [List.getElem?_set] at hu
        split at hu
        · rename_i hij; subst hij
          split at hu
          · cases hu; have := h.split j _ k hj hk; exact this
          · cases hu
        · exact h.split i u k hu hk
      · intro u hu hb
        rcases mem_set_of hu with hu | rfl
        · exact h.busy u hu hb
        · cases hb
      · intro u hu hb
        rcases mem_set_of hu with hu | rfl
        · exact h.ok u hu hb
        · cases hb
      · intro u hu r hb
        rcases mem_set_of hu with hu | rfl
        · rcases h.res u hu r hb with h1 | ⟨q, rs, q1, q2 | ⟨q2, q3, q4⟩⟩
          · exact .inl h1
          · exact .inr ⟨q, rs, q1, .inl q2⟩
          · exact .inr ⟨q, rs, q1, .inr ⟨q2, q3, hmono q q4⟩⟩
        · cases hb
          exact .inr ⟨p, rest, rfl, .inr ⟨rfl, e2, by simp⟩⟩
    | close p rest hcl =>
      obtain ⟨p', rest', e1, e2⟩ := h.busy _ hm rfl
      cases e1
      have hnew : ∀ i, p ∉ pre i := by
        intro i hi
        rw [(h.closed i p hi).1] at hcl; cases hcl
      refine ⟨fun i => if i = j then pre j ++ [p] else pre i, by simp only [List.length_set]; exact h.len, ?_, ?_, ?_, ?_, ?_, ?_, ?_⟩
      · intro i u k hu hk
        simp only at hu ⊢
        rw [List.getElem?_set] at hu
        split at hu
        · rename_i hij; subst hij
          split at hu
          · cases hu
            rw [if_pos rfl, h.split j _ k hj hk]; simp
          · cases hu
        · rename_i hij
          rw [if_neg (fun h => hij h.symm)]
          exact h.split i u k hu hk
      · intro i q hq
        simp only at hq ⊢
        split at hq
        · rcases List.mem_append.mp hq with hq | hq
          · exact ⟨hmono q (h.closed j q hq).1, (h.closed j q hq).2⟩
          · rw [List.mem_singleton] at hq; subst hq
            exact ⟨by simp, e2⟩
        · exact ⟨hmono q (h.closed i q hq).1, (h.closed i q hq).2⟩
      · intro i i' q hq hq'
        split at hq <;> split at hq'
        · omega
        · rename_i a b; subst a
          rcases List.mem_append.mp hq with hq | hq
          · exact h.once _ _ q hq hq'
          · rw [List.mem_singleton] at hq; subst hq; exact absurd hq' (hnew _)
        · rename_i a b; subst b
          rcases List.mem_append.mp hq' with hq' | hq'
          · exact h.once _ _ q hq hq'
          · rw [List.mem_singleton] at hq'; subst hq'; exact absurd hq (hnew _)
        · exact h.once _ _ q hq hq'
      · intro i
        split
        · rw [List.nodup_append]
          refine ⟨h.nodup j, by simp, ?_⟩
          intro a ha b hb
          rw [List.mem_singleton] at hb; subst hb
          rintro rfl
          exact hnew j ha
        · exact h.nodup i
      · intro u hu hb
        rcases mem_set_of hu with hu | rfl
        · exact h.busy u hu hb
        · cases hb
      · intro u hu hb
        rcases mem_set_of hu with hu | rfl
        · exact h.ok u hu hb
        · cases hb
      · intro u hu r hb
        rcases mem_set_of hu with hu | rfl
        · rcases h.res u hu r hb with h1 | ⟨q, rs, q1, q2 | ⟨q2, q3, q4⟩⟩
          · exact .inl h1
          · exact .inr ⟨q, rs, q1, .inl q2⟩
          · exact .inr ⟨q, rs, q1, .inr ⟨q2, q3, hmono q q4⟩⟩
        · cases hb

theorem reach_kinv {H : Bytes → Bytes} {fio : FileIO} {ti : TorInfo} {fs : FS.State} {calls : List Call} {closings : List Closing} {faulty : Bool} {s : St}
    (hr : Reach (Step fio faulty) (init H ti fs calls closings) s) : ∃ pre, KInv fio closings s pre := by
  induction hr with
  | refl =>
    refine ⟨fun _ => [], by simp [init], ?_, by simp, by simp, by simp, ?_, ?_, ?_⟩
    · intro j c k hc hk
      unfold init at hc; simp only at hc
      rw [List.getElem?_map, hk] at hc
      cases hc; rfl
    all_goals
      intro c hc
      obtain ⟨x, -, rfl⟩ := List.mem_map.mp hc
      simp [begin, CPc.isBusy]
  | tail s' s'' _ hs ih =>
    obtain ⟨pre, hk⟩ := ih
    exact hk.step hs

/-- **C127**, the results of Close and CloseAll: after a success all files of the call are closed (and were open files of the torrent, each named once);
otherwise the first file that was not closed by the call is not one of the torrent, or is closed (by somebody else, or with an error). -/
theorem C127_close_result (H : Bytes → Bytes) (fio : FileIO) (ti : TorInfo) (fs : FS.State) (calls : List Call) (closings : List Closing) (faulty : Bool) (s : St)
    (hr : Reach (Step fio faulty) (init H ti fs calls closings) s) (j : Nat) (k : Closing) (c : Closer) (r : Res Unit) (hk : closings[j]? = some k)
    (hc : s.cls[j]? = some c) (hpc : c.pc = .done r) :
    (r = .ok () ∧ k.paths.Nodup ∧ ∀ p ∈ k.paths, p ∈ fio.opened ∧ s.closed p = true) ∨
    ∃ done p rest, k.paths = done ++ p :: rest ∧ (∀ q ∈ done, q ∈ fio.opened ∧ s.closed q = true) ∧
      (r = .err .path ∧ p ∉ fio.opened ∨ r = .err .os ∧ p ∈ fio.opened ∧ s.closed p = true) := by
  obtain ⟨pre, inv⟩ := reach_kinv hr
  have hsp := inv.split j c k hc hk
  rcases inv.res c (List.mem_of_getElem? hc) r hpc with rfl | ⟨p, rest, h1, h2⟩
  · have h0 := inv.ok c (List.mem_of_getElem? hc) hpc
    rw [h0, List.append_nil] at hsp
    refine .inl ⟨rfl, by rw [hsp]; exact inv.nodup j, ?_⟩
    intro p hp
    rw [hsp] at hp
    exact ⟨(inv.closed j p hp).2, (inv.closed j p hp).1⟩
  · exact .inr ⟨pre j, p, rest, by rw [hsp, h1], fun q hq => ⟨(inv.closed j q hq).2, (inv.closed j q hq).1⟩, h2⟩

/-- **C127**, closed once: two calls that both succeed have no file in common; so of several calls of Close for one file at most one succeeds, and CloseAll
does not succeed beside it. -/
theorem C127_once (H : Bytes → Bytes) (fio : FileIO) (ti : TorInfo) (fs : FS.State) (calls : List Call) (closings : List Closing) (faulty : Bool) (s : St)
    (hr : Reach (Step fio faulty) (init H ti fs calls closings) s) (i j : Nat) (k k' : Closing) (c c' : Closer) (hij : i ≠ j) (hk : closings[i]? = some k)
    (hk' : closings[j]? = some k') (hc : s.cls[i]? = some c) (hc' : s.cls[j]? = some c') (hpc : c.pc = .done (.ok ())) (hpc' : c'.pc = .done (.ok ()))
    (p : Bytes) (hp : p ∈ k.paths) : p ∉ k'.paths := by
  obtain ⟨pre, inv⟩ := reach_kinv hr
  have h1 := inv.split i c k hc hk
  have h2 := inv.split j c' k' hc' hk'
  rw [inv.ok c (List.mem_of_getElem? hc) hpc, List.append_nil] at h1
  rw [inv.ok c' (List.mem_of_getElem? hc') hpc', List.append_nil] at h2
  rw [h1] at hp
  intro hp'
  rw [h2] at hp'
  exact hij (inv.once i j p hp hp')

/-! ### Half a piece -/

/-- one goroutine writes the only piece of `tornFiles` -/
def halfCalls : List Call := [.write 0 [1, 1] []]

/-- **C127**, what may be left: a write that fails since a file is closed does not leave the piece alone.  The piece is `00` on disk; WritePiece of `11` returns an error,
Close succeeds, and the piece is `10` on disk. -/
theorem C127_half_written (H : Bytes → Bytes) (hH : (H [1, 1]).length = 20) :
    ∃ s t, Accepted 2 (H [1, 1]) tornFiles (tornTi (H [1, 1])) ∧ (tornFiles.map EntryBase.localPath).Nodup ∧ Stored tornDisk tornFiles [[0], [0]] ∧
      Sized H (H [1, 1]) 1 2 [0, 0] halfCalls ∧
      Reach (Step (openedAll (tornTi (H [1, 1]))) false) (init H (tornTi (H [1, 1])) tornDisk halfCalls [.close (ascii "b")]) s ∧ AllBack s ∧ s.ths[0]? = some t ∧ t.pc = .done (.err .os) ∧
      s.cls = [⟨[], .done (.ok ())⟩] ∧ s.closed (ascii "b") = true ∧ Stored s.sh.fs tornFiles [[1], [0]] := by
  have hi : init H (tornTi (H [1, 1])) tornDisk halfCalls [.close (ascii "b")] =
      ⟨⟨tornDisk, fun _ => 0, fun _ => false⟩, fun _ => false, [⟨true, [1, 1], [⟨0, 0, 1⟩, ⟨1, 0, 1⟩], 0, .top⟩], [⟨[ascii "b"], .top⟩]⟩ := by
    have hp : (tornTi (H [1, 1])).PieceHash 0 = .ok (H [1, 1]) := by
      unfold TorInfo.PieceHash
      rw [if_neg (by simp [tornTi, hH])]
      simp only [tornTi, Int.zero_mul, Int.toNat_zero, List.drop_zero]
      rw [List.take_of_length_le (by omega)]
    have hl : (tornTi (H [1, 1])).PieceLookup 0 = .ok [⟨0, 0, 1⟩, ⟨1, 0, 1⟩] := rfl
    unfold init
    simp only [halfCalls, List.map_cons, List.map_nil, start, startWrite, hp, hl]
    rw [if_neg (by simp)]
    rfl
  have a : ascii "a" ≠ ascii "b" := by decide
  have hs : Stored tornDisk tornFiles [[0], [0]] := by
    refine ⟨rfl, ?_⟩
    intro k f c hf hc
    match k with
    | 0 => cases hf; cases hc; decide
    | 1 => cases hf; cases hc; decide
    | k + 2 => simp at hc
  have ea : (openedAll (tornTi (H [1, 1]))).torInfo.flist[0]? = some ⟨MakeFileEntry (ascii "a") 1, 0, 0, 0, 0⟩ := rfl
  have eb : (openedAll (tornTi (H [1, 1]))).torInfo.flist[1]? = some ⟨MakeFileEntry (ascii "b") 1, 0, 0, 1, 1⟩ := rfl
  have oa : (MakeFileEntry (ascii "a") 1).localPath ∈ (openedAll (tornTi (H [1, 1]))).opened := List.mem_cons_self ..
  have ob : (MakeFileEntry (ascii "b") 1).localPath ∈ (openedAll (tornTi (H [1, 1]))).opened :=
    List.mem_cons_of_mem _ (List.mem_cons_self ..)
  have ncut : ∀ (t : Th) (cl : Bytes → Bool), cl = (fun _ => false) → ¬ Cut (openedAll (tornTi (H [1, 1]))) cl t := by
    rintro t cl rfl ⟨l, rest, e, k, h1, h2, h3, h4, h5⟩
    cases h4
  have nmove : ∀ (t : Th) (cl : Bytes → Bool), t.pc.isMove = false → ¬ Cut (openedAll (tornTi (H [1, 1]))) cl t := by
    rintro t cl h ⟨l, rest, e, k, h1, -⟩
    rw [h1] at h; cases h
  have r0 : Reach (Step (openedAll (tornTi (H [1, 1]))) false) (init H (tornTi (H [1, 1])) tornDisk halfCalls [.close (ascii "b")])
      ⟨⟨tornDisk, fun _ => 0, fun _ => false⟩, fun _ => false, [⟨true, [1, 1], [⟨0, 0, 1⟩, ⟨1, 0, 1⟩], 0, .top⟩], [⟨[ascii "b"], .top⟩]⟩ := by
    rw [hi]; exact .refl
  -- the first half is written
  have r1 := r0.tail _ _ (.work _ 0 _ _ _ rfl (ncut _ _ rfl) (.announce _ _ _ _ _ rfl rfl ⟨by decide, by decide⟩ ea oa rfl rfl))
  have r2 := r1.tail _ _ (.work _ 0 _ _ _ rfl (ncut _ _ rfl) (.lock _ _ _ _ _ rfl rfl ea rfl))
  have r3 := r2.tail _ _ (.work _ 0 _ _ _ rfl (ncut _ _ rfl) (.put _ _ _ _ _ 0 1 [0] rfl rfl ea rfl rfl (by decide) (by decide) (by decide)))
  have r4 := r3.tail _ _ (.work _ 0 _ _ _ rfl (ncut _ _ rfl) (.release _ _ _ _ _ 1 [1] rfl rfl ea rfl (by decide) (by decide)))
  -- the second file is closed
  have r5 := r4.tail _ _ (.closing _ 0 _ _ _ _ rfl (.announce _ _ (ascii "b") [] ob rfl))
  have r6 := r5.tail _ _ (.closing _ 0 _ _ _ _ rfl (.lock _ _ (ascii "b") [] rfl))
  have r7 := r6.tail _ _ (.closing _ 0 _ _ _ _ rfl (.close _ _ (ascii "b") [] rfl))
  have r8 := r7.tail _ _ (.closing _ 0 _ _ _ _ rfl (.finish _ _))
  -- the second half
  have r9 := r8.tail _ _ (.work _ 0 _ _ _ rfl (nmove _ _ rfl) (.announce _ _ _ _ _ rfl rfl ⟨by decide, by decide⟩ eb ob rfl rfl))
  have r10 := r9.tail _ _ (.work _ 0 _ _ _ rfl (nmove _ _ rfl) (.lock _ _ _ _ _ rfl rfl eb rfl))
  have r11 := r10.tail _ _ (.cut _ 0 _ _ _ _ 0 rfl rfl rfl eb rfl (by decide))
  refine ⟨_, _, ⟨by decide, ?_, ascii "t", tornTi_made _ hH⟩, by decide, hs, ?_, r11, ⟨?_, ?_⟩, rfl, rfl, rfl, rfl, ?_⟩
  · intro f hf
    simp only [tornFiles, List.mem_cons, List.mem_nil_iff, or_false] at hf
    rcases hf with rfl | rfl <;> decide
  · constructor
    · rintro i d ⟨h1, -, spare, h3⟩
      simp only [halfCalls, List.mem_cons, Call.write.injEq, List.mem_nil_iff, or_false] at h3
      obtain ⟨h, rfl, -⟩ := h3
      have : i = 0 := by omega
      subst this; decide
    · intro i buf hb _
      simp [halfCalls] at hb
  · intro t ht
    simp at ht
    subst ht; exact ⟨_, rfl⟩
  · intro c hc
    simp at hc
    subst hc; exact ⟨_, rfl⟩
  · refine ⟨rfl, ?_⟩
    intro k f c hf hc
    match k with
    | 0 => cases hf; cases hc; rfl
    | 1 => cases hf; cases hc; rfl
    | k + 2 => simp at hc

/-! ### Examples -/

/-- a hash function for the examples -/
def exH : Bytes → Bytes := fun _ => List.replicate 20 0

/-- a read, a write, and three calls that close files -/
def exClosings : List Closing := [.close (ascii "b"), .close (ascii "a"), .closeAll [ascii "a", ascii "b"]]

/-- Pieces are read and written, then both files are closed; the last CloseAll finds them closed. -/
theorem ex_run : ∃ s, Accepted 2 (exH [1, 1]) tornFiles (tornTi (exH [1, 1])) ∧ Stored tornDisk tornFiles [[0], [0]] ∧
    Sized exH (exH [1, 1]) 1 2 [0, 0] tornCalls ∧
    Reach (Step (openedAll (tornTi (exH [1, 1]))) false) (init exH (tornTi (exH [1, 1])) tornDisk tornCalls exClosings) s ∧ AllBack s ∧
    s.ths = [⟨false, [0, 0], [], 2, .done (.ok 2)⟩, ⟨true, [1, 1], [], 2, .done (.ok 2)⟩] ∧
    s.cls = [⟨[], .done (.ok ())⟩, ⟨[], .done (.ok ())⟩, ⟨[ascii "a", ascii "b"], .done (.err .os)⟩] ∧
    s.closed (ascii "a") = true ∧ s.closed (ascii "b") = true := by
  have hi : init exH (tornTi (exH [1, 1])) tornDisk tornCalls exClosings =
      ⟨⟨tornDisk, fun _ => 0, fun _ => false⟩, fun _ => false, [⟨false, [7, 7], [⟨0, 0, 1⟩, ⟨1, 0, 1⟩], 0, .top⟩,
        ⟨true, [1, 1], [⟨0, 0, 1⟩, ⟨1, 0, 1⟩], 0, .top⟩], [⟨[ascii "b"], .top⟩, ⟨[ascii "a"], .top⟩, ⟨[ascii "a", ascii "b"], .top⟩]⟩ := by
    rfl
  have a : ascii "a" ≠ ascii "b" := by decide
  have hs : Stored tornDisk tornFiles [[0], [0]] := by
    refine ⟨rfl, ?_⟩
    intro k f c hf hc
    match k with
    | 0 => cases hf; cases hc; decide
    | 1 => cases hf; cases hc; decide
    | k + 2 => simp at hc
  have ea : (openedAll (tornTi (exH [1, 1]))).torInfo.flist[0]? = some ⟨MakeFileEntry (ascii "a") 1, 0, 0, 0, 0⟩ := rfl
  have eb : (openedAll (tornTi (exH [1, 1]))).torInfo.flist[1]? = some ⟨MakeFileEntry (ascii "b") 1, 0, 0, 1, 1⟩ := rfl
  have oa : (MakeFileEntry (ascii "a") 1).localPath ∈ (openedAll (tornTi (exH [1, 1]))).opened := List.mem_cons_self ..
  have ob : (MakeFileEntry (ascii "b") 1).localPath ∈ (openedAll (tornTi (exH [1, 1]))).opened :=
    List.mem_cons_of_mem _ (List.mem_cons_self ..)
  have ncut : ∀ (t : Th) (cl : Bytes → Bool), cl = (fun _ => false) → ¬ Cut (openedAll (tornTi (exH [1, 1]))) cl t := by
    rintro t cl rfl ⟨l, rest, e, k, h1, h2, h3, h4, h5⟩
    cases h4
  have r0 : Reach (Step (openedAll (tornTi (exH [1, 1]))) false) (init exH (tornTi (exH [1, 1])) tornDisk tornCalls exClosings)
      ⟨⟨tornDisk, fun _ => 0, fun _ => false⟩, fun _ => false, [⟨false, [7, 7], [⟨0, 0, 1⟩, ⟨1, 0, 1⟩], 0, .top⟩,
        ⟨true, [1, 1], [⟨0, 0, 1⟩, ⟨1, 0, 1⟩], 0, .top⟩], [⟨[ascii "b"], .top⟩, ⟨[ascii "a"], .top⟩, ⟨[ascii "a", ascii "b"], .top⟩]⟩ := by
    rw [hi]; exact .refl
  have r1 := r0.tail _ _ (.work _ 0 _ _ _ rfl (ncut _ _ rfl) (.rlock _ _ _ _ _ rfl rfl ⟨by decide, by decide⟩ ea oa rfl rfl))
  have r2 := r1.tail _ _ (.work _ 0 _ _ _ rfl (ncut _ _ rfl) (.get _ _ _ _ _ 0 1 [0] rfl rfl ea rfl rfl (by decide) (by decide) (by decide) (by decide)))
  have r3 := r2.tail _ _ (.work _ 0 _ _ _ rfl (ncut _ _ rfl) (.release _ _ _ _ _ 1 [0] rfl rfl ea rfl (by decide) (by decide)))
  have r4 := r3.tail _ _ (.work _ 0 _ _ _ rfl (ncut _ _ rfl) (.rlock _ _ _ _ _ rfl rfl ⟨by decide, by decide⟩ eb ob rfl rfl))
  have r5 := r4.tail _ _ (.work _ 0 _ _ _ rfl (ncut _ _ rfl) (.get _ _ _ _ _ 0 1 [0] rfl rfl eb rfl rfl (by decide) (by decide) (by decide) (by decide)))
  have r6 := r5.tail _ _ (.work _ 0 _ _ _ rfl (ncut _ _ rfl) (.release _ _ _ _ _ 1 [0] rfl rfl eb rfl (by decide) (by decide)))
  have r7 := r6.tail _ _ (.work _ 0 _ _ _ rfl (ncut _ _ rfl) (.finish _ _ rfl rfl))
  have w1 := r7.tail _ _ (.work _ 1 _ _ _ rfl (ncut _ _ rfl) (.announce _ _ _ _ _ rfl rfl ⟨by decide, by decide⟩ ea oa rfl rfl))
  have w2 := w1.tail _ _ (.work _ 1 _ _ _ rfl (ncut _ _ rfl) (.lock _ _ _ _ _ rfl rfl ea rfl))
  have w3 := w2.tail _ _ (.work _ 1 _ _ _ rfl (ncut _ _ rfl) (.put _ _ _ _ _ 0 1 [0] rfl rfl ea rfl rfl (by decide) (by decide) (by decide)))
  have w4 := w3.tail _ _ (.work _ 1 _ _ _ rfl (ncut _ _ rfl) (.release _ _ _ _ _ 1 [1] rfl rfl ea rfl (by decide) (by decide)))
  have w5 := w4.tail _ _ (.work _ 1 _ _ _ rfl (ncut _ _ rfl) (.announce _ _ _ _ _ rfl rfl ⟨by decide, by decide⟩ eb ob rfl rfl))
  have w6 := w5.tail _ _ (.work _ 1 _ _ _ rfl (ncut _ _ rfl) (.lock _ _ _ _ _ rfl rfl eb rfl))
  have w7 := w6.tail _ _ (.work _ 1 _ _ _ rfl (ncut _ _ rfl) (.put _ _ _ _ _ 0 1 [0] rfl rfl eb rfl rfl (by decide) (by decide) (by decide)))
  have w8 := w7.tail _ _ (.work _ 1 _ _ _ rfl (ncut _ _ rfl) (.release _ _ _ _ _ 1 [1] rfl rfl eb rfl (by decide) (by decide)))
  have w9 := w8.tail _ _ (.work _ 1 _ _ _ rfl (ncut _ _ rfl) (.finish _ _ rfl rfl))
  have c1 := w9.tail _ _ (.closing _ 0 _ _ _ _ rfl (.announce _ _ (ascii "b") [] ob rfl))
  have c2 := c1.tail _ _ (.closing _ 0 _ _ _ _ rfl (.lock _ _ (ascii "b") [] rfl))
  have c3 := c2.tail _ _ (.closing _ 0 _ _ _ _ rfl (.close _ _ (ascii "b") [] rfl))
  have c4 := c3.tail _ _ (.closing _ 0 _ _ _ _ rfl (.finish _ _))
  have d1 := c4.tail _ _ (.closing _ 1 _ _ _ _ rfl (.announce _ _ (ascii "a") [] oa rfl))
  have d2 := d1.tail _ _ (.closing _ 1 _ _ _ _ rfl (.lock _ _ (ascii "a") [] rfl))
  have d3 := d2.tail _ _ (.closing _ 1 _ _ _ _ rfl (.close _ _ (ascii "a") [] rfl))
  have d4 := d3.tail _ _ (.closing _ 1 _ _ _ _ rfl (.finish _ _))
  have e1 := d4.tail _ _ (.closing _ 2 _ _ _ _ rfl (.announce _ _ (ascii "a") [ascii "b"] oa rfl))
  have e2 := e1.tail _ _ (.closing _ 2 _ _ _ _ rfl (.lock _ _ (ascii "a") [ascii "b"] rfl))
  have e3 := e2.tail _ _ (.closing _ 2 _ _ _ _ rfl (.again _ _ (ascii "a") [ascii "b"] rfl))
  refine ⟨_, ⟨by decide, ?_, ascii "t", tornTi_made _ rfl⟩, hs, ?_, e3, ⟨?_, ?_⟩, rfl, rfl, rfl, rfl⟩
  · intro f hf
    simp only [tornFiles, List.mem_cons, List.mem_nil_iff, or_false] at hf
    rcases hf with rfl | rfl <;> decide
  · constructor
    · rintro i d ⟨h1, -, spare, h3⟩
      simp only [tornCalls, List.mem_cons, Call.write.injEq, List.mem_nil_iff, or_false, reduceCtorEq, false_or] at h3
      obtain ⟨h, rfl, -⟩ := h3
      have : i = 0 := by omega
      subst this; decide
    · intro i buf hb _
      simp only [tornCalls, List.mem_cons, Call.read.injEq, List.mem_nil_iff, or_false, reduceCtorEq] at hb
      obtain ⟨h, rfl⟩ := hb
      have : i = 0 := by omega
      subst this; decide
  · intro t ht
    simp at ht
    rcases ht with rfl | rfl <;> exact ⟨_, rfl⟩
  · intro c hc
    simp at hc
    rcases hc with rfl | rfl | rfl <;> exact ⟨_, rfl⟩

/-- C127_reads, C127_written, C127_disk, C127_close_result, C127_once and C127_closed apply to this execution. -/
example : ∃ s, (∃ x, [0, 0] = x ++ ([7, 7] : Bytes).drop 2 ∧ x.length = 2 ∧
      Mixture exH (exH [1, 1]) 1 2 (Files.lens tornFiles) [0, 0] tornCalls 0 x) ∧
    (∃ cs', Stored s.sh.fs tornFiles cs' ∧ Mixture exH (exH [1, 1]) 1 2 (Files.lens tornFiles) [0, 0] tornCalls 0 (pieceOf cs'.flatten 2 0)) ∧
    (∃ cs', Stored s.sh.fs tornFiles cs' ∧ ∀ o < 2, ∃ v, cs'.flatten[0 * 2 + o]? = some v ∧ Written exH (exH [1, 1]) 1 2 tornCalls (0 * 2 + o) v) ∧
    ascii "b" ∉ [ascii "a"] ∧
    (∀ s', Reach (Step (openedAll (tornTi (exH [1, 1]))) false) s s' → s'.closed (ascii "a") = true) ∧
    ∃ done p rest, [ascii "a", ascii "b"] = done ++ p :: rest ∧ s.closed p = true := by
  obtain ⟨s, h, hs, hz, hr, hall, ht, hc, ca, cb⟩ := ex_run
  have hd : (tornFiles.map EntryBase.localPath).Nodup := by decide
  refine ⟨s, ?_, ?_, ?_, ?_, ?_, ?_⟩
  · exact C127_reads exH 2 _ tornFiles _ h hd tornDisk _ hs tornCalls hz exClosings false s hr 0 (by decide) 0 [7, 7] _ 2 rfl (by rw [ht]; rfl) rfl
  · exact (C127_disk exH 2 _ tornFiles _ h hd tornDisk _ hs tornCalls hz exClosings false s hr hall).2 0 (by decide)
  · obtain ⟨cs', h1, h2⟩ := C127_written exH 2 _ tornFiles _ h hd tornDisk _ hs tornCalls hz exClosings false s hr
    obtain ⟨k, k1, -, -, k2, -⟩ := h2 1 0 [1, 1] [] _ 2 rfl (by rw [ht]; rfl) rfl
    have : k = 0 := by omega
    subst this
    exact ⟨cs', h1, k2⟩
  · exact C127_once exH _ _ tornDisk tornCalls exClosings false s hr 0 1 _ _ _ _ (by decide) rfl rfl (by rw [hc]; rfl) (by rw [hc]; rfl) rfl rfl (ascii "b")
      (List.mem_cons_self ..)
  · intro s' hr'
    exact (C127_closed _ false s s' (ascii "a") ca hr').1
  · rcases C127_close_result exH _ _ tornDisk tornCalls exClosings false s hr 2 _ _ _ rfl (by rw [hc]; rfl) rfl with ⟨h1, -⟩ | ⟨dn, p, rest, h1, -, h2⟩
    · cases h1
    · rcases h2 with ⟨h2, -⟩ | ⟨-, -, h2⟩
      · cases h2
      · exact ⟨dn, p, rest, h1, h2⟩

/-- C127_results for the write of `C127_half_written`: it met a closed file with bytes of its piece. -/
example : ∃ s : St, ∃ kf f, tornFiles[kf]? = some f ∧ s.closed f.localPath = true ∧ HasPart (Files.lens tornFiles) 2 0 2 kf := by
  obtain ⟨s, t, h, hd, hs, hz, hr, hall, ht, hpc, -⟩ := C127_half_written exH rfl
  rcases (C127_results exH 2 _ tornFiles _ h hd tornDisk _ hs halfCalls hz _ false s hr 0 t _ ht hpc).2 0 [1, 1] [] rfl with ⟨h1, -⟩ | ⟨k, h1, -, h2⟩
  · exact absurd ⟨by decide, by decide, [], by decide⟩ (h1 0 rfl)
  · have : k = 0 := by omega
    subst this
    rcases h2 with h2 | ⟨-, kf, f, h3, h4, h5⟩
    · cases h2
    · exact ⟨s, kf, f, h3, h4, h5⟩

/-- C127_refused: the second file is closed before the write begins -/
example (s' : St) (t : Th) (n : Nat) : ∃ s, Reach (Step (openedAll (tornTi (exH [1, 1]))) false)
      (init exH (tornTi (exH [1, 1])) tornDisk halfCalls [.close (ascii "b")]) s ∧
    (Reach (Step (openedAll (tornTi (exH [1, 1]))) false) s s' → s'.ths[0]? = some t → t.pc ≠ .done (.ok n)) := by
  obtain ⟨-, h, hs, -⟩ := ex_run
  have ob : (MakeFileEntry (ascii "b") 1).localPath ∈ (openedAll (tornTi (exH [1, 1]))).opened :=
    List.mem_cons_of_mem _ (List.mem_cons_self ..)
  have r0 : Reach (Step (openedAll (tornTi (exH [1, 1]))) false) (init exH (tornTi (exH [1, 1])) tornDisk halfCalls [.close (ascii "b")])
      ⟨⟨tornDisk, fun _ => 0, fun _ => false⟩, fun _ => false, [start exH (tornTi (exH [1, 1])) (.write 0 [1, 1] [])], [⟨[ascii "b"], .top⟩]⟩ := .refl
  have r1 := r0.tail _ _ (.closing _ 0 _ _ _ _ rfl (.announce _ _ (ascii "b") [] ob rfl))
  have r2 := r1.tail _ _ (.closing _ 0 _ _ _ _ rfl (.lock _ _ (ascii "b") [] rfl))
  have r3 := r2.tail _ _ (.closing _ 0 _ _ _ _ rfl (.close _ _ (ascii "b") [] rfl))
  refine ⟨_, r3, ?_⟩
  intro hr' ht
  exact C127_refused exH 2 _ tornFiles _ h tornDisk _ hs halfCalls _ false _ s' r3 0 (by decide) 1 _ rfl ⟨1, by decide, by decide, by decide⟩ rfl 0
    (.write 0 [1, 1] []) (.inr ⟨_, _, rfl⟩) rfl hr' t ht n

end Verif.FileClose
